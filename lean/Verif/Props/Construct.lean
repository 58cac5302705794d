import Verif.Proofs.Construct
import Verif.Proofs.Fresh
/-
C44: objects made from what their parts parsed to, `p.as<T...>()`.
-/
namespace Abu

/-! ### C44 -/

/-- C44: the verdict and the consumption of `p.as<T...>()` are those of `p`, whatever the
destinations are. -/
theorem C44_recognises_what_p_recognises (env : Env) (tys : List Ty) (p : Pat) (t : List Ch)
    (o : Option (List Ch)) : (Recognises env (.construct tys p) t o → Yields env p t o) ∧
      (Recognises env p t o → Yields env (.construct tys p) t o) := by
  constructor
  · intro h
    obtain ⟨r, rest, hg, hf⟩ := h.ghost
    rw [topParser_constr] at hg
    exact yields_of_ghost (ghost_constr.1 hg) hf
  · intro h
    obtain ⟨r, rest, hg, hf⟩ := h.ghost
    refine yields_of_ghost ?_ hf
    rw [topParser_constr]
    exact ghost_constr.2 hg

/-- C44, complete parses under every delivery schedule, success: `p` alone, parsing into a tuple of
value-initialised elements, leaves the arguments in it; the destination holds the object made from
exactly these, whatever it held before. (`quiet`: no actions that write through an
`ActionParam`.) -/
theorem C44_value (env : Env) (p : Pat) (tys : List Ty) (ty : Ty) (u v : Val) (zs args : List Val)
    (log log' : List LogEntry) (t rest : List Ch) (he : env.quiet) (hq : p.quiet = true)
    (hz : AllValueInitialised tys zs)
    (h : Alone env p (.tup tys) (.tup zs) log t .SUCCESS (.tup args) log' rest)
    (hm : MadeFrom ty args v) : Alone env (.construct tys p) ty u log t .SUCCESS v log' rest := by
  rw [hz.eq] at h
  exact h.constr_value hq he hm

/-- C44: in particular for a sequence, the k-th argument is what the k-th part that produces a value
parsed to. -/
theorem C44_parts (env : Env) (ps : List Pat) (tys : List Ty) (n : Nat) (u : Val)
    (zs args : List Val)
    (log log' : List LogEntry) (t rest : List Ch) (he : env.quiet) (hq : Pat.quiets ps = true)
    (hne : ps ≠ []) (hty : ∀ ty ∈ tys, ty ≠ .nil)
    (hz : AllValueInitialised tys zs)
    (h : EachAlone env ps tys zs log t .SUCCESS args log' rest) :
    Alone env (.construct tys (.seq ps)) (.user n) u log t .SUCCESS (.obj n args) log' rest := by
  rw [hz.eq] at h
  exact (Alone.seq he h hne hq hty).constr_value (by rw [Pat.quiet]; exact hq) he .object

/-- C44, likewise when `p` fails, at whatever point: the destination is as it was. -/
theorem C44_failure (env : Env) (p : Pat) (tys : List Ty) (ty : Ty) (u w : Val) (zs : List Val)
    (log log' : List LogEntry) (t rest : List Ch) (he : env.quiet) (hq : p.quiet = true)
    (hz : AllValueInitialised tys zs)
    (h : Alone env p (.tup tys) (.tup zs) log t .FAILURE w log' rest) :
    Alone env (.construct tys p) ty u log t .FAILURE u log' rest := by
  rw [hz.eq] at h
  exact h.constr_fail hq he

/-- C44, for every parser of `as<T...>()` into a part of memory of a class type, wherever it is used,
on any data source, suspended any number of times: it ends as the parser `P` of its operand, working
on the new tuple. If that failed, nothing else happened. If it succeeded, the destination holds
the object made from what is in the tuple then, and nothing else is written. -/
theorem C44_in_context {σ : Type} [DataSource σ] (env : Env) (tys : List Ty) (P : Prog) (o : Nat)
    (q : List Nat) (n : Nat) (bnd : Ref) (w w' : World σ Mem) (r : Res)
    (h : Used env (.construct tys P) (.at o q (.user n)) bnd w r w') :
    ∃ zs w1, AllValueInitialised tys zs ∧ Used env P (.at w.mem.objs.length [] (.tup tys)) bnd
        ⟨w.ds, ⟨w.mem.objs ++ [.tup zs], w.mem.log⟩⟩ r w1 ∧
      w'.ds = w1.ds ∧ (r = .FAILURE → w'.mem = w1.mem) ∧
      (r = .SUCCESS → ∃ args, w1.mem.look w.mem.objs.length [] = .ok (.tup args) ∧
        w'.mem.look o q = .ok (.obj n args) ∧ w'.mem.log = w1.mem.log ∧
        ∀ o' q', (Ref.at o q (.user n)).Misses o' q' → w'.mem.look o' q' = w1.mem.look o' q') := by
  obtain ⟨w1, h1, h2, h3, h4⟩ := used_constr.1 h
  exact ⟨_, w1, valueInits_are tys, h1, h2, fun hr => h4 (by rw [hr]; simp),
    fun hr => construct_object (h3 hr)⟩

/-- C44: while such a parser is suspended, and when it has failed, everything that was there before,
the destination too, is as it was. -/
theorem C44_no_trace_before_success {σ : Type} [DataSource σ] (env : Env) (tys : List Ty) (P : Prog)
    (dst bnd : Ref) (w w' : World σ Mem) (he : env.quiet) (hq : P.quiet = true)
    (h : Suspended env (.construct tys P) dst bnd w w' ∨
      Used env (.construct tys P) dst bnd w .FAILURE w')
    (o : Nat) (q : List Nat) (v : Val) (hv : w.mem.look o q = .ok v) : w'.mem.look o q = .ok v := by
  obtain ⟨h1, h2⟩ := alloc_misses (ty := .tup tys) hv
  rcases h with h | h
  · exact (suspended_constr.1 h).keeps_other (.inl h1) hq he h2
  · obtain ⟨w1, h3, _, _, h4⟩ := used_constr.1 h
    rw [h4 (by simp)]
    exact h3.keeps_other (.inl h1) hq he h2

/-- `(uint_ >> ',' >> uint_).as<unsigned, unsigned>()`, the rectangle of the README. -/
def exRect : List Pat := [uint_, litC 44, uint_]
example : EachAlone (fun _ => none) exRect [.unsigned, .unsigned]
    [.num 0, .num 0] [] [49, 50, 44, 51, 41] .SUCCESS [.num 12, .num 3] []
    [41] :=
  .value rfl ⟨_, .of_parses (parses_of_parseN (n := 12) rfl), rfl, rfl⟩ <|
  .ignore rfl ⟨_, .of_parses (parses_of_parseN (n := 12) rfl), rfl⟩ <|
  .value rfl ⟨_, .of_parses (parses_of_parseN (n := 12) rfl), rfl, rfl⟩ .nil
example : Pat.quiets exRect = true := rfl
example : AllValueInitialised [.unsigned, .unsigned] [.num 0, .num 0] := .cons .num (.cons .num .nil)
example : Alone (fun _ => none) (.seq exRect) (.tup [.unsigned, .unsigned])
    (.tup [.num 0, .num 0]) [] [49, 50, 44, 41] .FAILURE
    (.tup [.num 12, .num 0]) [] [41] :=
  ⟨_, .of_parses (parses_of_parseN (n := 12) rfl), rfl, rfl⟩
/-- On "12," it is suspended, on "12,)" it fails: the object is still the one it was. -/
example : Suspended (fun _ => none) (topParser (.construct [.unsigned, .unsigned] (.seq exRect)))
    (.at 0 [] (.user 7)) .nil
    (⟨⟨[49, 50, 44], 0, [], false⟩, ⟨[.obj 7 []], []⟩⟩ : World Cursor Mem)
    ⟨⟨[49, 50, 44], 3, [], false⟩, ⟨[.obj 7 [], .tup [.num 12, .num 0]], []⟩⟩ :=
  ⟨_, _, ⟨[49, 50, 44], 0, [], false⟩, rfl, .more ⟨by simp, 12, rfl⟩ .none⟩
example : Used (fun _ => none) (topParser (.construct [.unsigned, .unsigned] (.seq exRect)))
    (.at 0 [] (.user 7)) .nil
    (⟨⟨[49, 50, 44, 41], 0, [], true⟩, ⟨[.obj 7 []], []⟩⟩ : World Cursor Mem) .FAILURE
    ⟨⟨[49, 50, 44, 41], 3, [], true⟩, ⟨[.obj 7 [], .tup [.num 12, .num 0]], []⟩⟩ :=
  ⟨_, _, ⟨[49, 50, 44, 41], 0, [], true⟩, rfl, .last ⟨by simp, 12, rfl⟩ (by simp)⟩
example : Used (fun _ => none) (topParser (.construct [.unsigned, .unsigned] (.seq exRect)))
    (.at 0 [] (.user 7)) .nil
    (⟨⟨[49, 50, 44, 51], 0, [], true⟩, ⟨[.obj 7 []], []⟩⟩ : World Cursor Mem) .SUCCESS
    ⟨⟨[49, 50, 44, 51], 4, [], true⟩, ⟨[.obj 7 [.num 12, .num 3], .tup [.num 12, .num 3]], []⟩⟩ :=
  ⟨_, _, ⟨[49, 50, 44, 51], 0, [], true⟩, rfl, .last ⟨by simp, 12, rfl⟩ (by simp)⟩
example : Recognises (fun _ => none) (.construct [.unsigned, .unsigned] (.seq exRect))
    [49, 50, 44, 51] (some []) :=
  ⟨.at 0 [] (.user 7), ⟨[.obj 7 []], []⟩, _, _, _, parses_of_parseN (n := 12) rfl, .ok⟩

end Abu
