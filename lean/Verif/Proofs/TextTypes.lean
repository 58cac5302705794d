import Verif.Spec.CharTypes
import Verif.Proofs.Leaf
/-
Symbol tables and literals of another character type.
-/
namespace Abu

theorem values_char {c : Ch} : c ∈ CharTy.char.values ↔ IsChar c := by
  simp only [CharTy.values, List.mem_map, List.mem_range, IsChar]
  constructor
  · rintro ⟨i, hi, rfl⟩; omega
  · intro h; exact ⟨(c + 128).toNat, by omega, by omega⟩

theorem values_wide {c : Ch} : c ∈ CharTy.wide.values ↔ 0 ≤ c ∧ c < 2 ^ 32 := by
  simp only [CharTy.values, List.mem_map, List.mem_range]
  constructor
  · rintro ⟨i, hi, rfl⟩; omega
  · intro h; exact ⟨c.toNat, by omega, by omega⟩

theorem noChar_values (t : CharTy) : noChar ∉ t.values := by
  cases t with
  | char => rw [values_char]; decide
  | wide => rw [values_wide]; decide

theorem mem_keysFor {t k : CharTy} {d c : Ch} (hc : c ∈ t.values) :
    c ∈ keysFor t k d ↔ convert t k c = d := by
  have hm : c ∈ t.values.filter (fun c => convert t k c == d) ↔ convert t k c = d := by
    simp [List.mem_filter, hc]
  unfold keysFor
  split
  · rename_i he
    rw [he] at hm
    rw [← hm]
    simp only [List.mem_singleton, List.not_mem_nil, iff_false]
    rintro rfl
    exact noChar_values t hc
  · rename_i he
    rw [he] at hm
    exact hm

theorem find_addAll (n : Node) (rest : Kids) (c : Ch) : ∀ cs : List Ch,
    (Kids.addAll n rest cs).find c = if c ∈ cs then some n else rest.find c
  | [] => by simp [Kids.addAll]
  | d :: cs => by
    rw [Kids.addAll, Kids.find, find_addAll n rest c cs]
    by_cases h : c = d
    · simp [h]
    · simp [h]

theorem find_on (t k : CharTy) {c : Ch} (hc : c ∈ t.values) : ∀ ks : Kids,
    (ks.on t k).find c = (ks.find (convert t k c)).map (Node.on t k)
  | .nil => rfl
  | .cons d n rest => by
    rw [Kids.on, find_addAll, Kids.find, find_on t k hc rest]
    by_cases h : convert t k c = d
    · rw [if_pos ((mem_keysFor hc).2 h), if_pos h]; rfl
    · rw [if_neg fun hm => h ((mem_keysFor hc).1 hm), if_neg h]

theorem child_on (t k : CharTy) (n : Node) : (n.on t k).child = n.child.on t k := by
  cases n; rfl

theorem val_on (t k : CharTy) (n : Node) : (n.on t k).val = n.val := by
  cases n; rfl

theorem isEmpty_on (t k : CharTy) (ks : Kids) : (ks.on t k).isEmpty = ks.isEmpty := by
  cases ks with
  | nil => rfl
  | cons d n rest =>
    rw [Kids.on]
    have : keysFor t k d ≠ [] := by unfold keysFor; split <;> simp
    cases h : keysFor t k d with
    | nil => exact absurd h this
    | cons c cs => rfl

theorem longest_on (t k : CharTy) : ∀ {l : List Ch}, (∀ c ∈ l, c ∈ t.values) → ∀ n : Node,
    longest (n.on t k) l = longest n (l.map (convert t k))
  | [], _, n => rfl
  | c :: l, h, n => by
    rw [longest, List.map_cons, longest, child_on, find_on t k (h c (by simp))]
    cases n.child.find (convert t k c) with
    | none => rfl
    | some n' =>
      simp only [Option.map_some, val_on]
      rw [longest_on t k (fun c hc => h c (by simp [hc])) n']

theorem lookup_on (t k : CharTy) {c : Ch} (hc : c ∈ t.values) : ∀ m : List (Ch × Val),
    (tableOn t k m).lookup c = m.lookup (convert t k c)
  | [] => rfl
  | (d, v) :: m => by
    have ih := lookup_on t k hc m
    unfold tableOn at ih ⊢
    rw [List.flatMap_cons, List.lookup_append, ih, List.lookup_cons]
    have hl : ∀ cs : List Ch, (cs.map fun c => (c, v)).lookup c = if c ∈ cs then some v else none := by
      intro cs
      induction cs with
      | nil => rfl
      | cons e cs ihc =>
        rw [List.map_cons, List.lookup_cons, ihc]
        by_cases h : c = e
        · simp [h]
        · rw [show (c == e) = false by simpa using h]; simp [h]
    rw [hl]
    by_cases h : convert t k c = d
    · rw [if_pos ((mem_keysFor hc).2 h)]; simp [h]
    · rw [if_neg fun hm => h ((mem_keysFor hc).1 hm)]
      have : (convert t k c == d) = false := by simpa using h
      rw [this]; rfl

theorem convert_ascii (t k : CharTy) {c : Ch} (h0 : 0 ≤ c) (h1 : c ≤ 127) : convert t k c = c := by
  cases t <;> cases k <;> simp only [convert, narrow, widen] <;> omega

theorem ascii_values (t : CharTy) {c : Ch} (h0 : 0 ≤ c) (h1 : c ≤ 127) : c ∈ t.values := by
  cases t with
  | char => rw [values_char]; exact ⟨by omega, h1⟩
  | wide => rw [values_wide]; omega

theorem CharTy.holds_iff (t : CharTy) (c : Ch) : t.Holds c ↔ c ∈ t.values := by
  cases t with
  | char => rw [values_char]; rfl
  | wide => rw [values_wide]; unfold CharTy.Holds; omega

theorem converted_iff {t k : CharTy} {c e : Ch} (hc : t.Holds c) :
    Converted k c e ↔ convert t k c = e := by
  unfold Converted
  cases t <;> cases k <;>
    simp only [convert, narrow, widen, CharTy.Holds, CharTy.count] at hc ⊢ <;>
    refine ⟨fun ⟨h, n, hn⟩ => by omega, fun h => ⟨by omega, ?_⟩⟩
  · exact ⟨0, by omega⟩
  · exact ⟨c / 4294967296, by omega⟩
  · exact ⟨(c + 128) / 256, by omega⟩
  · exact ⟨0, by omega⟩

theorem convertedText_iff {t k : CharTy} {cs es : List Ch} (hc : ∀ c ∈ cs, t.Holds c) :
    ConvertedText k cs es ↔ cs.map (convert t k) = es := by
  induction cs generalizing es with
  | nil =>
    constructor
    · intro h; cases h; rfl
    · rintro rfl; exact .nil
  | cons c cs ih =>
    have ih := fun es => ih (es := es) fun c h => hc c (by simp [h])
    constructor
    · intro h
      cases h with
      | cons h1 h2 => rw [List.map_cons, (converted_iff (hc c (by simp))).1 h1, (ih _).1 h2]
    · rintro rfl
      exact .cons ((converted_iff (hc c (by simp))).2 rfl) ((ih _).2 rfl)

end Abu
