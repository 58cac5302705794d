import Verif.Proofs.Compatible
import Verif.Spec.Documented
/-
Documented destinations are suitable ones.
-/
namespace Abu

section
variable {N : NumKind → Prop} {G : Nat → Ty → Ty → Prop} {B : Ty}

theorem slots_same {D : Ty} (hD : D.isTup = false) : ∀ {ps : List Pat} {k : Nat},
    (∀ p ∈ ps, p.valued = true → p.into N G false B D) →
    (∀ p ∈ ps, p.valued = false → p.into N G false B .nil) → Pat.intoSlots N G B D k ps
  | [], _, _, _ => trivial
  | p :: ps, k, h1, h2 => by
    rw [Pat.intoSlots]
    have ih := fun k => slots_same hD (k := k) (fun q hq => h1 q (List.mem_cons_of_mem _ hq))
      fun q hq => h2 q (List.mem_cons_of_mem _ hq)
    split
    · refine ⟨⟨D, ?_, h1 p (by simp) (by assumption)⟩, ih _⟩
      cases D <;> first | rfl | cases hD
    · exact ⟨h2 p (by simp) (by simp_all), ih _⟩

theorem slots_tuple {Ds : List Ty} : ∀ {ps : List Pat} {k : Nat},
    (∀ (i : Nat) p D, (ps.filter Pat.valued)[i]? = some p → Ds[k + i]? = some D →
      p.into N G false B D) →
    k + (ps.filter Pat.valued).length = Ds.length →
    (∀ p ∈ ps, p.valued = false → p.into N G false B .nil) → Pat.intoSlots N G B (.tup Ds) k ps
  | [], _, _, _, _ => trivial
  | p :: ps, k, h1, h2, h3 => by
    rw [Pat.intoSlots]
    have h3' := fun q hq => h3 q (List.mem_cons_of_mem _ hq)
    split
    · rename_i hv
      rw [List.filter_cons_of_pos hv] at h1 h2
      have hk : k < Ds.length := by simp at h2; omega
      refine ⟨⟨Ds[k], by simp [Ty.forValue, hk], h1 0 p _ rfl (by simp [hk])⟩,
        slots_tuple (fun i q D hi hD => h1 (i + 1) q D hi (by rw [← hD]; congr 1; omega)) ?_ h3'⟩
      simp at h2; omega
    · rename_i hv
      rw [List.filter_cons_of_neg hv] at h1 h2
      exact ⟨h3 p (by simp) (by simp_all), slots_tuple h1 h2 h3'⟩

theorem allInto_of {a : Bool} {D : Ty} : ∀ {ps : List Pat},
    (∀ p ∈ ps, p.into N G a B D) → Pat.allInto N G a B D ps
  | [], _ => trivial
  | p :: ps, h => by
    rw [Pat.allInto]
    exact ⟨h p (by simp), allInto_of fun q hq => h q (by simp [hq])⟩

theorem nil_inner (a : Bool) : Ty.nil.inner a = .nil := by cases a <;> rfl

theorem allOnePiece_mem : ∀ {ps : List Pat}, Pat.allOnePiece ps = true → ∀ p ∈ ps, p.onePiece = true
  | p :: ps, h, q, hq => by
    rw [Pat.allOnePiece, Bool.and_eq_true] at h
    cases hq with
    | head => exact h.1
    | tail _ hq => exact allOnePiece_mem h.2 q hq

theorem Act.Gives.typed {D E : Ty} {a : Act} (h : a.Gives B D)
    (hE : ∀ v, D.has v → E.Receives v) : a.Typed B E := by
  intro log v b hv hb
  obtain ⟨h1, h2⟩ := h log v b hv hb
  exact ⟨fun _ => hE _ h1, h2⟩

/-- What the destinations of `Recur` objects have to be. -/
def docRecur (Gd : Nat → Ty → Prop) (B : Ty) (id : Nat) (B' D : Ty) : Prop :=
  B' = B ∧ (Gd id D ∨ D = .nil ∧ ∃ D', Gd id D')

theorem receives_self {D : Ty} {v : Val} (hD : D.isColl = false) (h : D.has v) : D.Receives v := by
  have : D.item = D := by cases D <;> first | rfl | cases hD
  rw [Ty.Receives, this]
  exact has_takes h

theorem Documented.into {Gd : Nat → Ty → Prop} {item : Bool} {p : Pat} {D : Ty}
    (h : Documented false N Gd B item p D) :
    (item = false → p.into N (docRecur Gd B) false B D) ∧
    (D.isNil = false → p.into N (docRecur Gd B) true B (.coll D)) ∧
    (∀ a, p.into N (docRecur Gd B) a B .nil) ∧
    (p.onePiece = true → D.isNil = false → p.into N (docRecur Gd B) false B (.coll D)) := by
  induction h with
  | char => simp [Pat.into, Ty.item, Ty.Digits]
  | int h => simp [Pat.into, Ty.inner, Ty.item, Ty.Digits, Pat.onePiece, h]
  | uint h => simp [Pat.into, Ty.inner, Ty.item, Ty.Digits, Pat.onePiece, h]
  | strLit => simp [Pat.into]
  | discard _ ih =>
    simp only [Pat.into]
    exact ⟨fun _ => ih.2.2.1 _, fun _ => ih.2.2.1 _, ih.2.2.1, fun h => (by cases h)⟩
  | charSymbol h hi =>
    simp only [Pat.into]
    refine ⟨?_, fun _ e he => has_takes (h e he), fun _ _ _ => nil_takes _,
      fun _ _ e he => has_takes (h e he)⟩
    rintro rfl e he
    exact receives_self (by simpa using hi) (h e he)
  | symbol h hi =>
    simp only [Pat.into]
    refine ⟨?_, fun _ e he => has_takes (h e he), fun _ _ _ => nil_takes _,
      fun _ _ e he => has_takes (h e he)⟩
    rintro rfl e he
    exact receives_self (by simpa using hi) (h e he)
  | eoi => simp [Pat.into]
  | pass => simp [Pat.into]
  | fail => simp [Pat.into]
  | not _ ih =>
    simp only [Pat.into]
    exact ⟨fun _ => ih.2.2.1 _, fun h => (by cases h), fun _ => ih.2.2.1 _, fun h => (by cases h)⟩
  | rep _ hD ih =>
    simp only [Pat.into, nil_inner]
    exact ⟨fun _ => ih.2.1 hD, fun _ => ih.2.1 hD, fun _ => ih.2.2.1 _, fun h => (by cases h)⟩
  | repNil _ ih =>
    simp only [Pat.into, nil_inner]
    exact ⟨fun _ => ih.2.2.1 _, fun h => (by cases h), fun _ => ih.2.2.1 _, fun h => (by cases h)⟩
  | action _ h hi ih =>
    simp only [Pat.into]
    refine ⟨?_, fun _ => ⟨ih.1 rfl, h.typed fun v hv => has_takes hv⟩,
      fun _ => ⟨ih.1 rfl, h.typed fun v hv => nil_takes _⟩,
      fun _ _ => ⟨ih.1 rfl, h.typed fun v hv => has_takes hv⟩⟩
    rintro rfl
    exact ⟨ih.1 rfl, h.typed fun v hv => receives_self (by simpa using hi) hv⟩
  | except _ _ ih1 ih2 =>
    simp only [Pat.into]
    exact ⟨fun h => ⟨ih1.1 h, ih2.2.2.1 _⟩, fun h => ⟨ih1.2.1 h, ih2.2.2.1 _⟩,
      fun _ => ⟨ih1.2.2.1 _, ih2.2.2.1 _⟩, fun h h' => ⟨ih1.2.2.2 h h', ih2.2.2.1 _⟩⟩
  | list _ hD _ ih1 ih2 =>
    simp only [Pat.into, nil_inner]
    exact ⟨fun _ => ⟨ih1.2.1 hD, ih2.2.2.1 _⟩, fun _ => ⟨ih1.2.1 hD, ih2.2.2.1 _⟩,
      fun _ => ⟨ih1.2.2.1 _, ih2.2.2.1 _⟩, fun h => (by cases h)⟩
  | listNil _ _ ih1 ih2 =>
    simp only [Pat.into, nil_inner]
    exact ⟨fun _ => ⟨ih1.2.2.1 _, ih2.2.2.1 _⟩, fun h => (by cases h),
      fun _ => ⟨ih1.2.2.1 _, ih2.2.2.1 _⟩, fun h => (by cases h)⟩
  | alt hne _ ih =>
    simp only [Pat.into]
    refine ⟨fun hi => ⟨hne, allInto_of fun p hp => (ih p hp).1 hi⟩,
      fun hi => ⟨hne, allInto_of fun p hp => (ih p hp).2.1 hi⟩,
      fun _ => ⟨hne, allInto_of fun p hp => (ih p hp).2.2.1 _⟩, fun h1 h2 => ?_⟩
    rw [Pat.onePiece] at h1
    exact ⟨hne, allInto_of fun p hp => (ih p hp).2.2.2 (allOnePiece_mem h1 p hp) h2⟩
  | lexeme _ ih => simpa only [Pat.into, Pat.onePiece] using ih
  | seqNil hne _ ih =>
    simp only [Pat.into, nil_inner]
    have := slots_same (N := N) (G := docRecur Gd B) (B := B) (D := .nil) rfl (k := 0)
      (fun p hp _ => (ih p hp).2.2.1 false) fun p hp _ => (ih p hp).2.2.1 false
    exact ⟨fun _ => ⟨hne, this⟩, fun h => (by cases h), fun _ => ⟨hne, this⟩, fun h => (by cases h)⟩
  | @seqOne item pre p post D h1 h2 h3 hD ih1 ih2 =>
    simp only [Pat.into, nil_inner]
    have hall : ∀ q ∈ pre ++ p :: post, q.into N (docRecur Gd B) false B .nil := by
      intro q hq
      by_cases h : q ∈ pre ++ post
      · exact (ih1 q h).2.2.1 _
      · have : q = p := by simp at hq h; grind
        subst this; exact ih2.2.2.1 _
    have hs : Pat.intoSlots N (docRecur Gd B) B D 0 (pre ++ p :: post) := by
      refine slots_same (by simpa using hD) ?_ fun q hq _ => hall q hq
      intro q hq hv
      by_cases h : q ∈ pre ++ post
      · have := h2 q h; rw [hv] at this; cases this
      · have : q = p := by simp at hq h; grind
        subst this; exact ih2.1 rfl
    exact ⟨fun _ => ⟨by simp, hs⟩, fun _ => ⟨by simp, hs⟩,
      fun _ => ⟨by simp, slots_same rfl (fun q hq _ => hall q hq) fun q hq _ => hall q hq⟩,
      fun h => (by cases h)⟩
  | @seqColl item ps D part hD hex h0 h0' h1 h1' h2 ih0 ih1 ih2 =>
    have hne : ps ≠ [] := by rintro rfl; simp at hex
    simp only [Pat.into, nil_inner]
    have hall : ∀ q ∈ ps, q.into N (docRecur Gd B) false B .nil := by
      intro q hq
      cases hp : part q with
      | none => exact (ih0 q hq hp).2.2.1 _
      | one => exact (ih1 q hq hp).2.2.1 _
      | many => exact (ih2 q hq hp).2.2.1 _
    have hs : Pat.intoSlots N (docRecur Gd B) B (.coll D) 0 ps := by
      refine slots_same rfl ?_ fun q hq _ => hall q hq
      intro q hq hv
      cases hp : part q with
      | none => have := h0' q hq hp; rw [hv] at this; cases this
      | one => exact (ih1 q hq hp).2.2.2 (by simpa using h1' q hq hp) hD
      | many => exact (ih2 q hq hp).1 rfl
    exact ⟨fun _ => ⟨hne, hs⟩, fun _ => ⟨hne, hs⟩,
      fun _ => ⟨hne, slots_same rfl (fun q hq _ => hall q hq) fun q hq _ => hall q hq⟩,
      fun h => (by cases h)⟩
  | @seqTuple item ps Ds hne h0 h1 hl ih0 ih1 =>
    simp only [Pat.into, nil_inner]
    have hall : ∀ q ∈ ps, q.into N (docRecur Gd B) false B .nil := by
      intro q hq
      cases hv : q.valued with
      | false => exact (ih0 q hq hv).2.2.1 _
      | true =>
        obtain ⟨i, hi, hq'⟩ := List.getElem_of_mem (List.mem_filter.2 ⟨hq, hv⟩)
        refine (ih1 i q Ds[i] ?_ ?_).2.2.1 _
        · rw [List.getElem?_eq_getElem hi, hq']
        · rw [List.getElem?_eq_getElem]
    have hs : Pat.intoSlots N (docRecur Gd B) B (.tup Ds) 0 ps := by
      refine slots_tuple (fun i q D hq hD => (ih1 i q D hq ?_).1 rfl) ?_ fun q hq _ => hall q hq
      · simpa using hD
      · simpa using hl
    exact ⟨fun _ => ⟨hne, hs⟩, fun _ => ⟨hne, hs⟩,
      fun _ => ⟨hne, slots_same rfl (fun q hq _ => hall q hq) fun q hq _ => hall q hq⟩,
      fun h => (by cases h)⟩
  | seqMade h => cases h
  | recur h =>
    simp only [Pat.into, nil_inner]
    exact ⟨fun _ => ⟨rfl, .inl h⟩, fun _ => ⟨rfl, .inl h⟩, fun _ => ⟨rfl, .inr ⟨rfl, _, h⟩⟩,
      fun h => (by cases h)⟩

theorem Env.Documented.into {env : Env} {Gd : Nat → Ty → Prop} (h : env.Documented false N Gd B) :
    env.Into N (docRecur Gd B) := by
  rintro id B' D ⟨rfl, hg | ⟨rfl, D', hg⟩⟩
  · obtain ⟨q, h1, h2⟩ := h id D hg
    exact ⟨q, h1, h2.into.1 rfl⟩
  · obtain ⟨q, h1, h2⟩ := h id D' hg
    exact ⟨q, h1, h2.into.2.2.1 _⟩

end

end Abu
