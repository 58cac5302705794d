import Verif.Proofs.Static
import Verif.Spec.WellFormed
/-
The compile-time checks.
-/
namespace Abu

theorem digitsAccepted_iff {b mn mx} : digitsAccepted b mn mx = true ↔ GoodNumber b mn mx := by
  unfold digitsAccepted GoodNumber
  simp only [Bool.and_eq_true, decide_eq_true_eq, Bool.or_eq_true, beq_iff_eq, and_assoc]
  constructor <;> intro h <;> omega

/-- The requirement is met, if there is one. -/
def Met (r : Req) (b : Bool) : Prop := r.CONSUMES = true → b = true

theorem met_congr {r r' : Req} {b} (h : r'.CONSUMES = r.CONSUMES) : Met r' b ↔ Met r b := by
  unfold Met; rw [h]

theorem met_true {r : Req} : Met r true ↔ True := by simp [Met]

theorem met_and {r : Req} {a b} : Met r (a && b) ↔ Met r a ∧ Met r b := by
  unfold Met
  cases r.CONSUMES <;> simp

mutual
theorem accepted_iff : ∀ (p : Pat) {r : Req}, p.accepted r = true ↔ p.WellFormed ∧ Met r p.looksHungry
  | .char _, r | .charSymbol _, r | .strLit _, r | .symbol _, r | .eoi, r | .fail, r | .recur .., r => by
    simp [Pat.accepted, Pat.WellFormed, Pat.looksHungry, Met]
  | .int b mn mx, r => by
    simp only [Pat.accepted, Pat.WellFormed, Pat.looksHungry, met_true, and_true]
    exact digitsAccepted_iff
  | .uint b mn mx, r => by
    simp only [Pat.accepted, Pat.WellFormed, Pat.looksHungry, met_true, and_true]
    exact digitsAccepted_iff
  | .pass, r => by
    simp only [Pat.accepted, Pat.WellFormed, Pat.looksHungry, Met]
    cases r.CONSUMES <;> simp
  | .seq ps, r => by
    rw [Pat.accepted, Bool.and_eq_true, allAccepted_iff ps]
    simp [Pat.WellFormed, Pat.looksHungry, Met]
  | .alt ps, r => by
    rw [Pat.accepted, Bool.and_eq_true, allAccepted_iff ps,
      met_congr (r' := { (r.lower (.alt ps)).derive with FAILS_CLEANLY := true }) (r := r) (lower_consumes r _)]
    simp [Pat.WellFormed, Pat.looksHungry, and_assoc]
  | .rep mn mx p, r => by
    rw [Pat.accepted, Bool.and_eq_true, accepted_iff p, met_congr (r := r) rfl]
    simp only [Pat.WellFormed, Pat.looksHungry, met_and]
    have : (!r.CONSUMES || decide (0 < mn)) = true ↔ Met r (mn != 0) := by
      unfold Met
      cases r.CONSUMES <;> simp <;> omega
    rw [this]
    exact ⟨fun ⟨a, b, c⟩ => ⟨b, a, c⟩, fun ⟨a, b, c⟩ => ⟨b, a, c⟩⟩
  | .opt p, r => by
    rw [Pat.accepted, accepted_iff p, met_congr (r := r) rfl]; rfl
  | .not p, r => by
    rw [Pat.accepted, accepted_iff p, met_congr (r := r) rfl]; rfl
  | .discard p, r => by
    rw [Pat.accepted, accepted_iff p, met_congr (r := r) (lower_consumes r _)]; rfl
  | .lexeme p, r => by
    rw [Pat.accepted, accepted_iff p, met_congr (r := r) (lower_consumes r _)]; rfl
  | .bindDst p, r => by
    rw [Pat.accepted, accepted_iff p, met_congr (r' := { (r.lower (.bindDst p)).derive with ATOMIC := false }) (r := r) (lower_consumes r _)]; rfl
  | .construct tys p, r => by
    rw [Pat.accepted, accepted_iff p, met_congr (r' := { (r.lower (.construct tys p)).derive with ATOMIC := false }) (r := r) (lower_consumes r _)]; rfl
  | .action a p, r => by
    rw [Pat.accepted, accepted_iff p, met_congr (r := r) rfl]; rfl
  | .except op neg, r => by
    rw [Pat.accepted, Bool.and_eq_true, accepted_iff op, accepted_iff neg,
      met_congr (r' := { (r.lower (.except op neg)).derive with FAILS_CLEANLY := false }) (r := r) (lower_consumes r _)]
    simp only [Pat.WellFormed, Pat.looksHungry]
    have : Met ⟨false, true, false, false⟩ neg.looksHungry := fun h => by cases h
    exact ⟨fun ⟨⟨a, b⟩, c, _⟩ => ⟨⟨a, c⟩, b⟩, fun ⟨⟨a, c⟩, b⟩ => ⟨⟨a, b⟩, c, this⟩⟩
  | .list op sep, r => by
    rw [Pat.accepted, Bool.and_eq_true, accepted_iff op, accepted_iff sep]
    simp [Pat.WellFormed, Pat.looksHungry, Met]
  | .withSkipper p s, r => by
    rw [Pat.accepted, Bool.and_eq_true, accepted_iff p, accepted_iff s,
      met_congr (r := r) (lower_consumes r _)]
    simp only [Pat.WellFormed, Pat.looksHungry]
    have : Met SkipReqs s.looksHungry ↔ s.looksHungry = true := ⟨fun h => h rfl, fun h _ => h⟩
    rw [this]
    exact ⟨fun ⟨⟨a, b⟩, c, d⟩ => ⟨⟨a, c, d⟩, b⟩, fun ⟨⟨a, c, d⟩, b⟩ => ⟨⟨a, b⟩, c, d⟩⟩
theorem allAccepted_iff : ∀ (ps : List Pat) {r : Req},
    Pat.allAccepted r ps = true ↔ Pat.AllWellFormed ps ∧ Met r (Pat.allLookHungry ps)
  | [], r => by simp [Pat.allAccepted, Pat.AllWellFormed, Pat.allLookHungry, Met]
  | p :: ps, r => by
    rw [Pat.allAccepted, Bool.and_eq_true, accepted_iff p, allAccepted_iff ps]
    simp only [Pat.AllWellFormed, Pat.allLookHungry, met_and]
    exact ⟨fun ⟨⟨a, b⟩, c, d⟩ => ⟨⟨a, c⟩, b, d⟩, fun ⟨⟨a, c⟩, b, d⟩ => ⟨⟨a, b⟩, c, d⟩⟩
end

mutual
theorem hungry_of_eats (c : Nat → Bool) : ∀ p : Pat, p.eats c = true → p.looksHungry = true
  | .char _, _ | .charSymbol _, _ | .strLit _, _ | .symbol _, _ | .eoi, _ | .fail, _ | .recur .., _
  | .int .., _ | .uint .., _ | .seq _, _ | .list .., _ => rfl
  | .pass, h => by cases h
  | .alt ps, h => allHungry_of_eats c ps h
  | .rep mn mx p, h => by
    rw [Pat.eats, Bool.and_eq_true, decide_eq_true_eq] at h
    rw [Pat.looksHungry, hungry_of_eats c p h.2, Bool.and_true]
    simp; omega
  | .opt p, h => by cases h
  | .not p, h => by cases h
  | .discard p, h => hungry_of_eats c p h
  | .lexeme p, h => hungry_of_eats c p h
  | .bindDst p, h => hungry_of_eats c p h
  | .construct _ p, h => hungry_of_eats c p h
  | .action _ p, h => hungry_of_eats c p h
  | .except op _, h => hungry_of_eats c op h
  | .withSkipper p _, h => hungry_of_eats c p h
theorem allHungry_of_eats (c : Nat → Bool) : ∀ ps : List Pat, Pat.allEat c ps = true → Pat.allLookHungry ps = true
  | [], _ => rfl
  | p :: ps, h => by
    rw [Pat.allEat, Bool.and_eq_true] at h
    rw [Pat.allLookHungry, hungry_of_eats c p h.1, allHungry_of_eats c ps h.2]
    rfl
end

end Abu
