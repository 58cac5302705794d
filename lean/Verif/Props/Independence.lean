import Verif.Proofs.Erase
import Verif.Proofs.Eval
/-
C29: recognition does not depend on destinations and actions.
-/
namespace Abu

theorem Act.forget_void (a : Act) : a.forget.void = a.void := rfl

/-- C29: two parses of the same text with the same pattern up to what the actions compute, with
any destinations and any contents of memory: if both give a verdict, the verdicts are the same
and the same text is left unread. -/
theorem C29_destination_does_not_influence_recognition (env env' : Env) (p p' : Pat)
    (dst dst' : Ref) (m m' : Mem) (t : List Ch) (r r' : Res) (m1 m1' : Mem)
    (rest rest' : List Ch)
    (hp : p.forget = p'.forget) (henv : env.forget = env'.forget)
    (h : Parses env p dst m t (.ok (r, m1, rest)))
    (h' : Parses env' p' dst' m' t (.ok (r', m1', rest'))) :
    r = r' ∧ rest = rest' := by
  have g1 := h.ghost (g := Act.forget) Act.forget_void
  have g2 := h'.ghost (g := Act.forget) Act.forget_void
  change GhostParses env.forget (topParser p.forget) t r rest at g1
  change GhostParses env'.forget (topParser p'.forget) t r' rest' at g2
  rw [hp, henv] at g1
  exact g1.unique g2

/-- C29: if a parse gives a verdict, then with any other destination, contents of memory and
results of the actions it also ends, with the same verdict and the same unread text, unless the
destination has an error of its own (overflow, copy of an uninitialised scalar, dangling
reference, type error). -/
theorem C29_other_destinations_end_too (env env' : Env) (p p' : Pat)
    (dst dst' : Ref) (m m' : Mem) (t : List Ch) (r : Res) (m1 : Mem) (rest : List Ch)
    (hp : p.forget = p'.forget) (henv : env.forget = env'.forget)
    (h : Parses env p dst m t (.ok (r, m1, rest))) :
    (∃ m1', Parses env' p' dst' m' t (.ok (r, m1', rest))) ∨
    ∃ e, (e = .ubOverflow ∨ e = .ubUninit ∨ e = .ubDangling ∨ e = .noCompile) ∧
      Parses env' p' dst' m' t (.error e) := by
  have g1 := h.ghost (g := Act.forget) Act.forget_void
  change GhostParses env.forget (topParser p.forget) t r rest at g1
  rw [hp, henv] at g1
  rcases g1.real (g := Act.forget) Act.forget_void dst' m' with h | ⟨e, he, h⟩
  · exact .inl h
  · refine .inr ⟨e, ?_, h⟩
    cases e <;> simp_all [Err.ofMem]

/-- Two patterns that differ in what their actions compute: `char_[f]`. -/
def exAct1 : Pat := .action ⟨0, .char, false, false, fun _ v _ => (v, .nil)⟩ (.char .any)
def exAct2 : Pat := .action ⟨0, .char, false, false, fun _ _ _ => (.num 3, .nil)⟩ (.char .any)

example : exAct1.forget = exAct2.forget := rfl
example : Parses (fun _ => none) exAct1 (.at 0 [] .char) ⟨[.num 0], []⟩ [97, 98]
    (.ok (.SUCCESS, ⟨[.num 97, .num 97], [⟨0, .num 97⟩]⟩, [98])) := parses_of_parseN (n := 9) rfl
example : Parses (fun _ => none) exAct2 (.at 0 [] .string) ⟨[.coll []], []⟩ [97, 98]
    (.ok (.SUCCESS, ⟨[.coll [.num 3], .num 97], [⟨0, .num 97⟩]⟩, [98])) :=
  parses_of_parseN (n := 9) rfl

end Abu
