import Verif.Proofs.WellFormed
import Verif.Proofs.Valued
import Verif.Spec.InSequence
/-
Calls of `dst_behavior()` in sequences.
-/
namespace Abu

theorem behaviorCompiles_iff : ∀ p : Pat,
    p.behaviorCompiles = true ↔ ∀ r, Heeds r p → ¬ Awkward r
  | .lexeme p => by
    simp only [Pat.behaviorCompiles, Bool.false_eq_true, false_iff]
    exact fun h => h _ .here .lexeme
  | .bindDst p => by
    simp only [Pat.behaviorCompiles, Bool.and_eq_true, behaviorCompiles_iff p]
    constructor
    · rintro ⟨h, hv⟩ r hr ha
      cases hr with
      | here =>
        cases ha with
        | bindDst hi => simp [ignore_of_valued hi] at hv
      | bindDst hr => exact h r hr ha
    · intro h
      refine ⟨fun r hr => h r (.bindDst hr), ?_⟩
      cases hv : p.valued with
      | false => exact absurd (.bindDst hv) (h _ .here)
      | true => simp [value_of_valued hv]
  | .rep _ _ p => by
    simp only [Pat.behaviorCompiles, behaviorCompiles_iff p]
    exact ⟨fun h r hr ha => by cases hr with
      | here => cases ha
      | rep hr => exact h r hr ha, fun h r hr => h r (.rep hr)⟩
  | .opt p => by
    simp only [Pat.behaviorCompiles, behaviorCompiles_iff p]
    exact ⟨fun h r hr ha => by cases hr with
      | here => cases ha
      | opt hr => exact h r hr ha, fun h r hr => h r (.opt hr)⟩
  | .except p _ => by
    simp only [Pat.behaviorCompiles, behaviorCompiles_iff p]
    exact ⟨fun h r hr ha => by cases hr with
      | here => cases ha
      | except hr => exact h r hr ha, fun h r hr => h r (.except hr)⟩
  | .list p _ => by
    simp only [Pat.behaviorCompiles, behaviorCompiles_iff p]
    exact ⟨fun h r hr ha => by cases hr with
      | here => cases ha
      | list hr => exact h r hr ha, fun h r hr => h r (.list hr)⟩
  | .withSkipper p _ => by
    simp only [Pat.behaviorCompiles, behaviorCompiles_iff p]
    exact ⟨fun h r hr ha => by cases hr with
      | here => cases ha
      | withSkipper hr => exact h r hr ha, fun h r hr => h r (.withSkipper hr)⟩
  | .char _ | .charSymbol _ | .strLit _ | .symbol _ | .int .. | .uint .. | .eoi | .pass | .fail | .seq _
  | .alt _ | .not _ | .discard _ | .construct .. | .action .. | .recur .. => by
    simp only [Pat.behaviorCompiles, true_iff]
    intro r hr ha
    cases hr
    cases ha

/-- No sequence in `p` has a child that depends on something awkward. -/
def SeqsFine (p : Pat) : Prop :=
  ∀ ps q r, Occurs (.seq ps) p → q ∈ ps → Heeds r q → ¬ Awkward r

/-- For leaves. -/
theorem SeqsFine.leaf {p : Pat} (h : ∀ q, Occurs q p → q = p) (hs : ∀ ps, p ≠ .seq ps) : SeqsFine p :=
  fun ps _ _ ho _ _ => absurd (h _ ho).symm (hs ps)

mutual
theorem sequencesCompile_iff : ∀ p : Pat, p.sequencesCompile = true ↔ SeqsFine p
  | .seq ps => by
    simp only [Pat.sequencesCompile, Bool.and_eq_true, allSequencesCompile_iff ps, List.all_eq_true,
      behaviorCompiles_iff]
    constructor
    · rintro ⟨h, hb⟩ qs q r ho hq hr
      cases ho with
      | here => exact hb q hq r hr
      | seq hm ho => exact h _ hm qs q r ho hq hr
    · intro h
      exact ⟨fun p hm qs q r ho hq hr => h qs q r (.seq hm ho) hq hr, fun q hq r hr => h ps q r .here hq hr⟩
  | .alt ps => by
    simp only [Pat.sequencesCompile, allSequencesCompile_iff ps]
    constructor
    · intro h qs q r ho hq hr
      cases ho with
      | alt hm ho => exact h _ hm qs q r ho hq hr
    · exact fun h p hm qs q r ho hq hr => h qs q r (.alt hm ho) hq hr
  | .rep _ _ p => by
    simp only [Pat.sequencesCompile, sequencesCompile_iff p]
    exact ⟨fun h qs q r ho => by cases ho with | rep ho => exact h qs q r ho,
      fun h qs q r ho => h qs q r (.rep ho)⟩
  | .opt p => by
    simp only [Pat.sequencesCompile, sequencesCompile_iff p]
    exact ⟨fun h qs q r ho => by cases ho with | opt ho => exact h qs q r ho,
      fun h qs q r ho => h qs q r (.opt ho)⟩
  | .not p => by
    simp only [Pat.sequencesCompile, sequencesCompile_iff p]
    exact ⟨fun h qs q r ho => by cases ho with | not ho => exact h qs q r ho,
      fun h qs q r ho => h qs q r (.not ho)⟩
  | .discard p => by
    simp only [Pat.sequencesCompile, sequencesCompile_iff p]
    exact ⟨fun h qs q r ho => by cases ho with | discard ho => exact h qs q r ho,
      fun h qs q r ho => h qs q r (.discard ho)⟩
  | .lexeme p => by
    simp only [Pat.sequencesCompile, sequencesCompile_iff p]
    exact ⟨fun h qs q r ho => by cases ho with | lexeme ho => exact h qs q r ho,
      fun h qs q r ho => h qs q r (.lexeme ho)⟩
  | .bindDst p => by
    simp only [Pat.sequencesCompile, sequencesCompile_iff p]
    exact ⟨fun h qs q r ho => by cases ho with | bindDst ho => exact h qs q r ho,
      fun h qs q r ho => h qs q r (.bindDst ho)⟩
  | .construct _ p => by
    simp only [Pat.sequencesCompile, sequencesCompile_iff p]
    exact ⟨fun h qs q r ho => by cases ho with | construct ho => exact h qs q r ho,
      fun h qs q r ho => h qs q r (.construct ho)⟩
  | .action _ p => by
    simp only [Pat.sequencesCompile, sequencesCompile_iff p]
    exact ⟨fun h qs q r ho => by cases ho with | action ho => exact h qs q r ho,
      fun h qs q r ho => h qs q r (.action ho)⟩
  | .except op neg => by
    simp only [Pat.sequencesCompile, Bool.and_eq_true, sequencesCompile_iff op, sequencesCompile_iff neg]
    constructor
    · rintro ⟨h1, h2⟩ qs q r ho
      cases ho with
      | exceptOp ho => exact h1 qs q r ho
      | exceptNeg ho => exact h2 qs q r ho
    · exact fun h => ⟨fun qs q r ho => h qs q r (.exceptOp ho), fun qs q r ho => h qs q r (.exceptNeg ho)⟩
  | .list op sep => by
    simp only [Pat.sequencesCompile, Bool.and_eq_true, sequencesCompile_iff op, sequencesCompile_iff sep]
    constructor
    · rintro ⟨h1, h2⟩ qs q r ho
      cases ho with
      | listOp ho => exact h1 qs q r ho
      | listSep ho => exact h2 qs q r ho
    · exact fun h => ⟨fun qs q r ho => h qs q r (.listOp ho), fun qs q r ho => h qs q r (.listSep ho)⟩
  | .withSkipper p s => by
    simp only [Pat.sequencesCompile, Bool.and_eq_true, sequencesCompile_iff p, sequencesCompile_iff s]
    constructor
    · rintro ⟨h1, h2⟩ qs q r ho
      cases ho with
      | operand ho => exact h1 qs q r ho
      | skipper ho => exact h2 qs q r ho
    · exact fun h => ⟨fun qs q r ho => h qs q r (.operand ho), fun qs q r ho => h qs q r (.skipper ho)⟩
  | .char _ | .charSymbol _ | .strLit _ | .symbol _ | .int .. | .uint .. | .eoi | .pass | .fail
  | .recur .. => by
    simp only [Pat.sequencesCompile, true_iff]
    exact .leaf (fun q ho => by cases ho; rfl) (fun ps h => by cases h)
theorem allSequencesCompile_iff : ∀ ps : List Pat,
    Pat.allSequencesCompile ps = true ↔ ∀ p ∈ ps, SeqsFine p
  | [] => by simp [Pat.allSequencesCompile]
  | p :: ps => by
    simp only [Pat.allSequencesCompile, Bool.and_eq_true, sequencesCompile_iff p,
      allSequencesCompile_iff ps, List.forall_mem_cons]
end

end Abu
