import Verif.Proofs.Frame
import Verif.Spec.Inline
/-
`Recur` does not matter to the grammar, nor (mostly) to the choice of parser classes.
-/
namespace Abu

theorem peg_inlined {env t p i o} (h : Peg env t p i o) : ∀ {p'}, Inlined env p p' →
    Peg env t p' i o := by
  induction h with
  | char h1 h2 => intro p' hi; cases hi; exact .char h1 h2
  | charNo h1 => intro p' hi; cases hi; exact .charNo h1
  | charSymbol h1 h2 => intro p' hi; cases hi; exact .charSymbol h1 h2
  | charSymbolNo h1 => intro p' hi; cases hi; exact .charSymbolNo h1
  | strLit h1 => intro p' hi; cases hi; exact .strLit h1
  | strLitNo h1 => intro p' hi; cases hi; exact .strLitNo h1
  | symbol h1 h2 => intro p' hi; cases hi; exact .symbol h1 h2
  | symbolNo h1 => intro p' hi; cases hi; exact .symbolNo h1
  | uint h1 => intro p' hi; cases hi; exact .uint h1
  | uintNo h1 => intro p' hi; cases hi; exact .uintNo h1
  | int h1 h2 => intro p' hi; cases hi; exact .int h1 h2
  | intNo h1 h2 => intro p' hi; cases hi; exact .intNo h1 h2
  | eoi h1 => intro p' hi; cases hi; exact .eoi h1
  | eoiNo h1 => intro p' hi; cases hi; exact .eoiNo h1
  | pass => intro p' hi; cases hi; exact .pass
  | fail => intro p' hi; cases hi; exact .fail
  | seqNil =>
    intro p' hi
    cases hi with
    | refl => exact .seqNil
    | seq h => cases h; exact .seqNil
  | seqNo _ ih =>
    intro p' hi
    cases hi with
    | refl => exact .seqNo (ih .refl)
    | seq h => cases h with | cons h1 h2 => exact .seqNo (ih h1)
  | seq _ _ ih1 ih2 =>
    intro p' hi
    cases hi with
    | refl => exact .seq (ih1 .refl) (ih2 .refl)
    | seq h => cases h with | cons h1 h2 => exact .seq (ih1 h1) (ih2 (.seq h2))
  | altNil =>
    intro p' hi
    cases hi with
    | refl => exact .altNil
    | alt h => cases h; exact .altNil
  | alt _ ih =>
    intro p' hi
    cases hi with
    | refl => exact .alt (ih .refl)
    | alt h => cases h with | cons h1 h2 => exact .alt (ih h1)
  | altNo _ _ ih1 ih2 =>
    intro p' hi
    cases hi with
    | refl => exact .altNo (ih1 .refl) (ih2 .refl)
    | alt h => cases h with | cons h1 h2 => exact .altNo (ih1 h1) (ih2 (.alt h2))
  | repStop _ ih =>
    intro p' hi
    cases hi with
    | refl => exact .repStop (ih .refl)
    | rep h => exact .repStop (ih h)
  | repFew hm _ ih =>
    intro p' hi
    cases hi with
    | refl => exact .repFew hm (ih .refl)
    | rep h => exact .repFew hm (ih h)
  | repLast _ ih =>
    intro p' hi
    cases hi with
    | refl => exact .repLast (ih .refl)
    | rep h => exact .repLast (ih h)
  | repMore hm _ _ ih1 ih2 =>
    intro p' hi
    cases hi with
    | refl => exact .repMore hm (ih1 .refl) (ih2 .refl)
    | rep h => exact .repMore hm (ih1 h) (ih2 (.rep h))
  | opt _ ih =>
    intro p' hi
    cases hi with
    | refl => exact .opt (ih .refl)
    | opt h => exact .opt (ih h)
  | optNo _ ih =>
    intro p' hi
    cases hi with
    | refl => exact .optNo (ih .refl)
    | opt h => exact .optNo (ih h)
  | not _ ih =>
    intro p' hi
    cases hi with
    | refl => exact .not (ih .refl)
    | not h => exact .not (ih h)
  | notNo _ ih =>
    intro p' hi
    cases hi with
    | refl => exact .notNo (ih .refl)
    | not h => exact .notNo (ih h)
  | discard _ ih =>
    intro p' hi
    cases hi with
    | refl => exact .discard (ih .refl)
    | discard h => exact .discard (ih h)
  | lexeme _ ih =>
    intro p' hi
    cases hi with
    | refl => exact .lexeme (ih .refl)
    | lexeme h => exact .lexeme (ih h)
  | bindDst _ ih =>
    intro p' hi
    cases hi with
    | refl => exact .bindDst (ih .refl)
    | bindDst h => exact .bindDst (ih h)
  | construct _ ih =>
    intro p' hi
    cases hi with
    | refl => exact .construct (ih .refl)
    | construct h => exact .construct (ih h)
  | action _ ih =>
    intro p' hi
    cases hi with
    | refl => exact .action (ih .refl)
    | action h => exact .action (ih h)
  | except _ _ ih1 ih2 =>
    intro p' hi
    cases hi with
    | refl => exact .except (ih1 .refl) (ih2 .refl)
    | except h1 h2 => exact .except (ih1 h2) (ih2 h1)
  | exceptNo _ ih1 =>
    intro p' hi
    cases hi with
    | refl => exact .exceptNo (ih1 .refl)
    | except h1 h2 => exact .exceptNo (ih1 h2)
  | listNil _ ih =>
    intro p' hi
    cases hi with
    | refl => exact .listNil (ih .refl)
    | list h1 h2 => exact .listNil (ih h1)
  | list _ _ ih1 ih2 =>
    intro p' hi
    cases hi with
    | refl => exact .list (ih1 .refl) (ih2 .refl)
    | list h1 h2 => exact .list (ih1 h1) (ih2 (.rep (.seq (.cons h2 (.cons h1 .nil)))))
  | recur hq h ih =>
    intro p' hi
    cases hi with
    | refl => exact .recur hq h
    | recur hq' => rw [hq] at hq'; cases hq'; exact h

/-- What the inlined pattern does, the original does. -/
theorem inlined_peg {env t p' i o} (h : Peg env t p' i o) : ∀ {p}, Inlined env p p' →
    Peg env t p i o := by
  induction h with
  | char h1 h2 =>
    intro p hi; have h := Peg.char (env := env) h1 h2
    cases hi with | refl => exact h | recur hq => exact .recur hq h
  | charNo h1 =>
    intro p hi; have h := Peg.charNo (env := env) h1
    cases hi with | refl => exact h | recur hq => exact .recur hq h
  | charSymbol h1 h2 =>
    intro p hi; have h := Peg.charSymbol (env := env) h1 h2
    cases hi with | refl => exact h | recur hq => exact .recur hq h
  | charSymbolNo h1 =>
    intro p hi; have h := Peg.charSymbolNo (env := env) h1
    cases hi with | refl => exact h | recur hq => exact .recur hq h
  | strLit h1 =>
    intro p hi; have h := Peg.strLit (env := env) h1
    cases hi with | refl => exact h | recur hq => exact .recur hq h
  | strLitNo h1 =>
    intro p hi; have h := Peg.strLitNo (env := env) h1
    cases hi with | refl => exact h | recur hq => exact .recur hq h
  | symbol h1 h2 =>
    intro p hi; have h := Peg.symbol (env := env) h1 h2
    cases hi with | refl => exact h | recur hq => exact .recur hq h
  | symbolNo h1 =>
    intro p hi; have h := Peg.symbolNo (env := env) h1
    cases hi with | refl => exact h | recur hq => exact .recur hq h
  | uint h1 =>
    intro p hi; have h := Peg.uint (env := env) h1
    cases hi with | refl => exact h | recur hq => exact .recur hq h
  | uintNo h1 =>
    intro p hi; have h := Peg.uintNo (env := env) h1
    cases hi with | refl => exact h | recur hq => exact .recur hq h
  | int h1 h2 =>
    intro p hi; have h := Peg.int (env := env) h1 h2
    cases hi with | refl => exact h | recur hq => exact .recur hq h
  | intNo h1 h2 =>
    intro p hi; have h := Peg.intNo (env := env) h1 h2
    cases hi with | refl => exact h | recur hq => exact .recur hq h
  | eoi h1 =>
    intro p hi; have h := Peg.eoi (env := env) h1
    cases hi with | refl => exact h | recur hq => exact .recur hq h
  | eoiNo h1 =>
    intro p hi; have h := Peg.eoiNo (env := env) h1
    cases hi with | refl => exact h | recur hq => exact .recur hq h
  | pass =>
    intro p hi; cases hi with | refl => exact .pass | recur hq => exact .recur hq .pass
  | fail =>
    intro p hi; cases hi with | refl => exact .fail | recur hq => exact .recur hq .fail
  | seqNil =>
    intro p hi
    cases hi with
    | refl => exact .seqNil
    | recur hq => exact .recur hq .seqNil
    | seq h => cases h; exact .seqNil
  | seqNo h0 ih =>
    intro p hi
    cases hi with
    | refl => exact .seqNo h0
    | recur hq => exact .recur hq (.seqNo h0)
    | seq h => cases h with | cons h1 h2 => exact .seqNo (ih h1)
  | seq h01 h02 ih1 ih2 =>
    intro p hi
    cases hi with
    | refl => exact .seq h01 h02
    | recur hq => exact .recur hq (.seq h01 h02)
    | seq h => cases h with | cons h1 h2 => exact .seq (ih1 h1) (ih2 (.seq h2))
  | altNil =>
    intro p hi
    cases hi with
    | refl => exact .altNil
    | recur hq => exact .recur hq .altNil
    | alt h => cases h; exact .altNil
  | alt h0 ih =>
    intro p hi
    cases hi with
    | refl => exact .alt h0
    | recur hq => exact .recur hq (.alt h0)
    | alt h => cases h with | cons h1 h2 => exact .alt (ih h1)
  | altNo h01 h02 ih1 ih2 =>
    intro p hi
    cases hi with
    | refl => exact .altNo h01 h02
    | recur hq => exact .recur hq (.altNo h01 h02)
    | alt h => cases h with | cons h1 h2 => exact .altNo (ih1 h1) (ih2 (.alt h2))
  | repStop h0 ih =>
    intro p hi
    cases hi with
    | refl => exact .repStop h0
    | recur hq => exact .recur hq (.repStop h0)
    | rep h => exact .repStop (ih h)
  | repFew hm h0 ih =>
    intro p hi
    cases hi with
    | refl => exact .repFew hm h0
    | recur hq => exact .recur hq (.repFew hm h0)
    | rep h => exact .repFew hm (ih h)
  | repLast h0 ih =>
    intro p hi
    cases hi with
    | refl => exact .repLast h0
    | recur hq => exact .recur hq (.repLast h0)
    | rep h => exact .repLast (ih h)
  | repMore hm h01 h02 ih1 ih2 =>
    intro p hi
    cases hi with
    | refl => exact .repMore hm h01 h02
    | recur hq => exact .recur hq (.repMore hm h01 h02)
    | rep h => exact .repMore hm (ih1 h) (ih2 (.rep h))
  | opt h0 ih =>
    intro p hi
    cases hi with
    | refl => exact .opt h0
    | recur hq => exact .recur hq (.opt h0)
    | opt h => exact .opt (ih h)
  | optNo h0 ih =>
    intro p hi
    cases hi with
    | refl => exact .optNo h0
    | recur hq => exact .recur hq (.optNo h0)
    | opt h => exact .optNo (ih h)
  | not h0 ih =>
    intro p hi
    cases hi with
    | refl => exact .not h0
    | recur hq => exact .recur hq (.not h0)
    | not h => exact .not (ih h)
  | notNo h0 ih =>
    intro p hi
    cases hi with
    | refl => exact .notNo h0
    | recur hq => exact .recur hq (.notNo h0)
    | not h => exact .notNo (ih h)
  | discard h0 ih =>
    intro p hi
    cases hi with
    | refl => exact .discard h0
    | recur hq => exact .recur hq (.discard h0)
    | discard h => exact .discard (ih h)
  | lexeme h0 ih =>
    intro p hi
    cases hi with
    | refl => exact .lexeme h0
    | recur hq => exact .recur hq (.lexeme h0)
    | lexeme h => exact .lexeme (ih h)
  | bindDst h0 ih =>
    intro p hi
    cases hi with
    | refl => exact .bindDst h0
    | recur hq => exact .recur hq (.bindDst h0)
    | bindDst h => exact .bindDst (ih h)
  | construct h0 ih =>
    intro p hi
    cases hi with
    | refl => exact .construct h0
    | recur hq => exact .recur hq (.construct h0)
    | construct h => exact .construct (ih h)
  | action h0 ih =>
    intro p hi
    cases hi with
    | refl => exact .action h0
    | recur hq => exact .recur hq (.action h0)
    | action h => exact .action (ih h)
  | except h01 h02 ih1 ih2 =>
    intro p hi
    cases hi with
    | refl => exact .except h01 h02
    | recur hq => exact .recur hq (.except h01 h02)
    | except h1 h2 => exact .except (ih1 h2) (ih2 h1)
  | exceptNo h0 ih1 =>
    intro p hi
    cases hi with
    | refl => exact .exceptNo h0
    | recur hq => exact .recur hq (.exceptNo h0)
    | except h1 h2 => exact .exceptNo (ih1 h2)
  | listNil h0 ih =>
    intro p hi
    cases hi with
    | refl => exact .listNil h0
    | recur hq => exact .recur hq (.listNil h0)
    | list h1 h2 => exact .listNil (ih h1)
  | list h01 h02 ih1 ih2 =>
    intro p hi
    cases hi with
    | refl => exact .list h01 h02
    | recur hq => exact .recur hq (.list h01 h02)
    | list h1 h2 => exact .list (ih1 h1) (ih2 (.rep (.seq (.cons h2 (.cons h1 .nil)))))
  | recur hq0 h0 ih =>
    intro p hi
    cases hi with
    | refl => exact .recur hq0 h0
    | recur hq => exact .recur hq (.recur hq0 h0)

theorem PegRest.inlined {env p p' t o} (hi : Inlined env p p') :
    PegRest env p t o ↔ PegRest env p' t o := by
  cases o with
  | none => exact ⟨fun h => peg_inlined h hi, fun h => inlined_peg h hi⟩
  | some rest =>
    exact ⟨fun ⟨j, h, e⟩ => ⟨j, peg_inlined h hi, e⟩, fun ⟨j, h, e⟩ => ⟨j, inlined_peg h hi, e⟩⟩

/-! ### At the top -/

theorem elabP_recurChild : ∀ q : Pat, q.startsWithSkipper = false →
    elabP .fail RecurChildReqs q = elabP .fail DefaultReqs q
  | .discard p, h => by
    have := elabP_recurChild p h
    simp only [elabP, Req.skipper, Req.needsAtomic, Req.needsClean, RecurChildReqs, DefaultReqs,
      Req.lower] at this ⊢
    simp only [Bool.not_true, Bool.false_and, if_true, Bool.not_false, Bool.true_and, Bool.and_false,
      Bool.false_eq_true, if_false, this]
  | .lexeme p, h => by
    have := elabP_recurChild p h
    simp only [elabP, Req.skipper, Req.needsAtomic, Req.needsClean, RecurChildReqs, DefaultReqs,
      Req.lower] at this ⊢
    simp only [Bool.not_true, Bool.false_and, if_true, Bool.not_false, Bool.true_and, Bool.and_false,
      Bool.false_eq_true, if_false, this]
  | .withSkipper .., h => by cases h
  | .seq _, _ | .alt _, _ | .rep .., _ | .opt _, _ | .not _, _ | .bindDst _, _ | .construct .., _
  | .action .., _ | .except .., _ | .list .., _ | .recur .., _ | .char _, _ | .charSymbol _, _
  | .strLit _, _ | .symbol _, _ | .int .., _ | .uint .., _ | .eoi, _ | .pass, _ | .fail, _ => by
    simp [elabP, Req.skipper, Req.needsAtomic, Req.needsClean, RecurChildReqs, DefaultReqs,
      Req.lower, Req.derive]

/-- `Recur` behaves as the parser it creates. -/
theorem ghost_recur {env id q n t r rest} (hq : env id = some q) :
    GhostParses env (topParser (.recur id n)) t r rest ↔
      GhostParses env (elabP .fail RecurChildReqs q) t r rest := by
  have htop : topParser (.recur id n) = .recur id .fail := by
    simp [topParser, elabP, Req.needsAtomic, Req.needsClean, DefaultReqs, adapt, Req.skipper,
      Prog.isFail]
  rw [htop]
  have hc : ∀ n c (w : World Cursor Unit), run env (n + 1) (.recur id .fail) .nil .nil (.recurSome c) w =
      match run env n (elabP .fail RecurChildReqs q) .nil .nil c w with
      | .error e => .error e
      | .ok ((r, c'), w') => .ok ((r, .recurSome c'), w') := by
    intro n c w
    rw [run_succ_andThen]
    simp only [body, hq, exec]
    cases run env n (elabP .fail RecurChildReqs q) .nil .nil c w with
    | error e => rfl
    | ok x => obtain ⟨⟨r, c'⟩, w'⟩ := x; rfl
  have h0 : ∀ n (w : World Cursor Unit), run env (n + 1) (.recur id .fail) .nil .nil .recurNone w =
      match construct (elabP .fail RecurChildReqs q) .nil .nil w with
      | .error e => .error e
      | .ok (c, w') => run env n (.recur id .fail) .nil .nil (.recurSome c) w' := by
    intro n w
    rw [run_succ_andThen]
    simp only [body, hq, exec_bind]
    rw [exec_mk_call (g := fun _ _ _ _ _ => .error .stuck)]
    rw [show exec (fun _ _ _ _ _ => .error .stuck) (mk (elabP .fail RecurChildReqs q) .nil .nil) w =
      construct (elabP .fail RecurChildReqs q) .nil .nil w from rfl]
    cases construct (elabP .fail RecurChildReqs q) .nil .nil w with
    | error e => rfl
    | ok x => rfl
  constructor
  · rintro ⟨st, w, k, st', w', h1, h2, h3⟩
    cases h1
    cases k with
    | zero => cases h2
    | succ k =>
      rw [h0] at h2
      cases h4 : construct (elabP .fail RecurChildReqs q) .nil .nil
          (⟨Cursor.whole t, ()⟩ : World Cursor Unit) with
      | error e => rw [h4] at h2; cases h2
      | ok x =>
        obtain ⟨c, w1⟩ := x
        rw [h4] at h2
        cases k with
        | zero => cases h2
        | succ k =>
          simp only [hc] at h2
          cases h5 : run env k (elabP .fail RecurChildReqs q) .nil .nil c w1 with
          | error e => rw [h5] at h2; cases h2
          | ok y =>
            obtain ⟨⟨r1, c1⟩, w2⟩ := y
            rw [h5] at h2
            cases h2
            exact ⟨c, w1, k, c1, _, h4, h5, h3⟩
  · rintro ⟨st, w, k, st', w', h1, h2, h3⟩
    refine ⟨.recurNone, _, k + 2, .recurSome st', w', rfl, ?_, h3⟩
    rw [h0, h1]
    simp only [hc, h2]

end Abu
