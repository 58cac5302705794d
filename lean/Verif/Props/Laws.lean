import Verif.Props.Grammar
import Verif.Proofs.Laws
/-
C67: rewriting grammars.
-/
namespace Abu

/-- C67 (partial: tidy patterns): patterns, and definitions of `Recur`s, that the laws of
parsing expression grammars turn into each other recognise the same. `els`, `elf`, `els'`, `elf'` say
whether the patterns used through `Recur` may leave stale rollback points. -/
theorem C67_laws_partial (env env' : Env) (p q : Pat) (els elf els' elf' : Stale)
    (he : env.Equiv env') (hpq : p.Equiv q)
    (henv : env.tidy false els elf) (hp : p.tidy false els elf false .any .any = true)
    (henv' : env'.tidy false els' elf') (hq : q.tidy false els' elf' false .any .any = true)
    (t : List Ch) (o : Option (List Ch)) (h : Recognises env p t o) : Yields env' q t o :=
  peg_yields henv' hq ((recognises_peg henv hp h).equiv he hpq)

/-- C67 (partial: plain patterns): in particular grammars without optional parts, symbol tables
keyed by characters, skippers and one-digit `Int`s. -/
theorem C67_plain_laws_partial (env env' : Env) (p q : Pat) (he : env.Equiv env')
    (hpq : p.Equiv q) (henv : env.plain) (hp : p.plain = true) (henv' : env'.plain)
    (hq : q.plain = true) (t : List Ch) (o : Option (List Ch)) :
    (Recognises env p t o → Yields env' q t o) ∧ (Recognises env' q t o → Yields env p t o) :=
  ⟨C67_laws_partial env env' p q _ _ _ _ he hpq henv.tidy (p.plain_tidy hp _ _ _) henv'.tidy
      (q.plain_tidy hq _ _ _) t o,
    C67_laws_partial env' env q p _ _ _ _ he.symm hpq.symm henv'.tidy (q.plain_tidy hq _ _ _)
      henv.tidy (p.plain_tidy hp _ _ _) t o⟩

/-- C67 is false in general: `-a` may be written `repeat<0, 1>(a)`, but
`(x >> -a >> b) | (x >> a >> c)` does not match "xac" and `(x >> repeat<0, 1>(a) >> b) | (x >> a >> c)`
does. -/
theorem C67_refuted :
    exStale.Equiv (.alt [.seq [lx, .rep 0 1 la, lb], .seq [lx, la, lc]]) ∧
    Recognises noEnv exStale [120, 97, 99] none ∧
    Recognises noEnv (.alt [.seq [lx, .rep 0 1 la, lb], .seq [lx, la, lc]]) [120, 97, 99]
      (some []) :=
  ⟨.inAlt [] [.seq [lx, la, lc]] (.inSeq [lx] [lb] (.optRep la)),
   ⟨.nil, ⟨[], []⟩, .FAILURE, _, _, parses_of_parseN (n := 12) rfl, .no⟩,
   ⟨.nil, ⟨[], []⟩, .SUCCESS, _, _, parses_of_parseN (n := 20) rfl, .ok⟩⟩

/-- C67: the order of alternatives matters: "a" | "ab" is not "ab" | "a". -/
theorem C67_alternatives_do_not_commute :
    ¬ (Pat.alt [.strLit [97], .strLit [97, 98]]).Equiv (.alt [.strLit [97, 98], .strLit [97]]) := by
  intro h
  have h1 : Recognises noEnv (.alt [.strLit [97], .strLit [97, 98]]) [97, 98] (some [98]) :=
    ⟨.nil, ⟨[], []⟩, .SUCCESS, _, _, parses_of_parseN (n := 12) rfl, .ok⟩
  have h2 : Recognises noEnv (.alt [.strLit [97, 98], .strLit [97]]) [97, 98] (some []) :=
    ⟨.nil, ⟨[], []⟩, .SUCCESS, _, _, parses_of_parseN (n := 12) rfl, .ok⟩
  refine h2.not_yields (o' := some [98]) (by simp) ?_
  exact (C67_plain_laws_partial noEnv noEnv _ _ (fun _ => .inl ⟨rfl, rfl⟩) h
    (fun _ _ h => by cases h) rfl (fun _ _ h => by cases h) rfl _ _).1 h1

/-- C67: a common end may not be taken out: ("a" | "ab") >> c is not "a" >> c | "ab" >> c. -/
theorem C67_common_ends_stay :
    ¬ (Pat.seq [.alt [.strLit [97], .strLit [97, 98]], lc]).Equiv
      (.alt [.seq [.strLit [97], lc], .seq [.strLit [97, 98], lc]]) := by
  intro h
  have h1 : Recognises noEnv (.seq [.alt [.strLit [97], .strLit [97, 98]], lc]) [97, 98, 99] none :=
    ⟨.nil, ⟨[], []⟩, .FAILURE, _, _, parses_of_parseN (n := 12) rfl, .no⟩
  have h2 : Recognises noEnv (.alt [.seq [.strLit [97], lc], .seq [.strLit [97, 98], lc]])
      [97, 98, 99] (some []) :=
    ⟨.nil, ⟨[], []⟩, .SUCCESS, _, _, parses_of_parseN (n := 12) rfl, .ok⟩
  refine h2.not_yields (o' := none) (by simp) ?_
  exact (C67_plain_laws_partial noEnv noEnv _ _ (fun _ => .inl ⟨rfl, rfl⟩) h
    (fun _ _ h => by cases h) rfl (fun _ _ h => by cases h) rfl _ _).1 h1

/-! The definition `r = '(' >> r >> ')' | '(' >> r >> ']' | x`, which parses what is inside brackets
again and again, may be written `r = '(' >> r >> (')' | ']') | x`. -/

def exBack : Pat :=
  .alt [.seq [litC 40, .recur 0 true, litC 41], .seq [litC 40, .recur 0 true, litC 93], lx]
def exBackEnv : Env := fun id => if id = 0 then some exBack else none
def exFactored : Pat := .alt [.seq [litC 40, .recur 0 true, .alt [litC 41, litC 93]], lx]
def exFactoredEnv : Env := fun id => if id = 0 then some exFactored else none

theorem exBack_equiv : exBack.Equiv exFactored := by
  refine (Pat.Equiv.altFlat []
    [.seq [litC 40, .recur 0 true, litC 41], .seq [litC 40, .recur 0 true, litC 93]] [lx]).symm.trans ?_
  refine .inAlt [] [lx] ?_
  refine (Pat.Equiv.factor (litC 40) [.recur 0 true, litC 41] [.recur 0 true, litC 93]).trans ?_
  refine (Pat.Equiv.inSeq [litC 40] [] (.factor (.recur 0 true) [litC 41] [litC 93])).trans ?_
  refine (Pat.Equiv.seqFlat [litC 40] [.recur 0 true, .alt [.seq [litC 41], .seq [litC 93]]] []).trans ?_
  refine .inSeq [litC 40, .recur 0 true] [] ?_
  refine (Pat.Equiv.inAlt [] [.seq [litC 93]] (.seqOne (litC 41))).trans ?_
  exact .inAlt [litC 41] [] (.seqOne (litC 93))

example : exBackEnv.Equiv exFactoredEnv ∧ exBack.Equiv exFactored ∧ exBackEnv.plain ∧
    exBack.plain = true ∧ exFactoredEnv.plain ∧ exFactored.plain = true ∧
    Recognises exBackEnv exBack [40, 40, 120, 93, 41] (some []) := by
  refine ⟨?_, exBack_equiv, ?_, rfl, ?_, rfl,
    ⟨.nil, ⟨[], []⟩, .SUCCESS, _, _, parses_of_parseN (n := 40) rfl, .ok⟩⟩
  · intro id
    by_cases h : id = 0
    · exact .inr ⟨_, _, if_pos h, if_pos h, exBack_equiv⟩
    · exact .inl ⟨if_neg h, if_neg h⟩
  · intro id q h
    simp only [exBackEnv] at h
    split at h <;> cases h
    rfl
  · intro id q h
    simp only [exFactoredEnv] at h
    split at h <;> cases h
    rfl

end Abu
