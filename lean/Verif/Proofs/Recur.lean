import Verif.Spec.Recur
/-
Histories of `Recur` objects.
-/
namespace Abu

theorem ops_vars {ops : List ROp} {s s' : RState} (h : s.ops ops = .ok s') :
    s'.vars = varObjects s.vars s.slots.length ops := by
  induction ops generalizing s with
  | nil => cases h; rfl
  | cons o ops ih =>
    simp only [RState.ops] at h
    split at h
    · cases h
    · rename_i s1 h1
      rw [ih h]
      cases o with
      | newPool => cases h1; rfl
      | dropPool k =>
        simp only [RState.op] at h1
        split at h1 <;> cases h1
        rfl
      | make k =>
        simp only [RState.op] at h1
        split at h1 <;> cases h1
        simp [varObjects]
      | copy r =>
        simp only [RState.op] at h1
        split at h1 <;> cases h1
        rename_i hr
        simp [varObjects, hr]
      | define r p =>
        simp only [RState.op] at h1
        split at h1
        · split at h1
          · split at h1 <;> cases h1
            simp [varObjects]
          · cases h1
        · cases h1

theorem ops_slots {ops : List ROp} {s s' : RState} (h : s.ops ops = .ok s') :
    s'.slots.map RSlot.pool = s.slots.map RSlot.pool ++ objectPools ops := by
  induction ops generalizing s with
  | nil => cases h; simp [objectPools]
  | cons o ops ih =>
    simp only [RState.ops] at h
    split at h
    · cases h
    · rename_i s1 h1
      rw [ih h]
      cases o with
      | newPool => cases h1; rfl
      | dropPool k =>
        simp only [RState.op] at h1
        split at h1 <;> cases h1
        rfl
      | make k =>
        simp only [RState.op] at h1
        split at h1 <;> cases h1
        simp [objectPools]
      | copy r =>
        simp only [RState.op] at h1
        split at h1 <;> cases h1
        rfl
      | define r p =>
        simp only [RState.op] at h1
        split at h1
        · split at h1
          · rename_i hs
            split at h1 <;> cases h1
            simp only [objectPools, List.map_set]
            congr 1
            obtain ⟨hlt, rfl⟩ := List.getElem?_eq_some_iff.1 hs
            apply List.ext_getElem?
            intro i
            rw [List.getElem?_set]
            split
            · subst i; simp [hlt]
            · rfl
          · cases h1
        · cases h1

/-- Variables made stay as they are. -/
theorem varObjects_prefix {vars n ops} {r o : Nat} (h : vars[r]? = some o) :
    (varObjects vars n ops)[r]? = some o := by
  induction ops generalizing vars n with
  | nil => exact h
  | cons op ops ih =>
    cases op <;> simp only [varObjects] <;> apply ih
    all_goals first
      | exact h
      | (rw [List.getElem?_append_left (List.getElem?_eq_some_iff.1 h).1]; exact h)

theorem ops_payload {ops : List ROp} {s s' : RState} (h : s.ops ops = .ok s') (o : Nat)
    (ho : o < s'.slots.length) :
    ((s'.slots[o]?).bind RSlot.payload) =
      lastDefinition s'.vars o ops ((s.slots[o]?).bind RSlot.payload) := by
  induction ops generalizing s with
  | nil => cases h; rfl
  | cons op ops ih =>
    have hall := h
    simp only [RState.ops] at h
    split at h
    · cases h
    · rename_i s1 h1
      rw [ih h]
      cases op with
      | newPool => cases h1; rfl
      | dropPool k =>
        simp only [RState.op] at h1
        split at h1 <;> cases h1
        rfl
      | make k =>
        simp only [RState.op] at h1
        split at h1 <;> cases h1
        simp only [lastDefinition]
        congr 1
        rcases Nat.lt_trichotomy o s.slots.length with hlt | rfl | hlt
        · rw [List.getElem?_append_left hlt]
        · simp
        · rw [List.getElem?_eq_none (by simp; omega), List.getElem?_eq_none (by omega)]
      | copy r =>
        simp only [RState.op] at h1
        split at h1 <;> cases h1
        rfl
      | define r p =>
        simp only [RState.op] at h1
        split at h1
        · rename_i hd hr
          split at h1
          · rename_i e hs
            split at h1 <;> cases h1
            simp only [lastDefinition]
            have hv : s'.vars[r]? = some hd := by
              rw [ops_vars hall]; exact varObjects_prefix hr
            rw [hv, List.getElem?_set]
            obtain ⟨hlt, rfl⟩ := List.getElem?_eq_some_iff.1 hs
            by_cases hx : hd = o
            · subst hx; simp [hlt]
            · simp [hx]
          · cases h1
        · cases h1

/-- Pools that are gone are gone. -/
theorem ops_pool_dead {ops : List ROp} {s s' : RState} (h : s.ops ops = .ok s') {k : Nat}
    (hk : s.pools[k]? = some false) : s'.pools[k]? = some false := by
  induction ops generalizing s with
  | nil => cases h; exact hk
  | cons op ops ih =>
    simp only [RState.ops] at h
    split at h
    · cases h
    · rename_i s1 h1
      refine ih h ?_
      have hlt := (List.getElem?_eq_some_iff.1 hk).1
      cases op with
      | newPool => cases h1; simp only [List.getElem?_append_left hlt]; exact hk
      | dropPool j =>
        simp only [RState.op] at h1
        split at h1 <;> cases h1
        simp only [List.getElem?_set]
        split
        · simp [*]
        · exact hk
      | make k =>
        simp only [RState.op] at h1
        split at h1 <;> cases h1
        exact hk
      | copy r =>
        simp only [RState.op] at h1
        split at h1 <;> cases h1
        exact hk
      | define r p =>
        simp only [RState.op] at h1
        split at h1
        · split at h1
          · split at h1 <;> cases h1
            exact hk
          · cases h1
        · cases h1

theorem ops_pool {ops : List ROp} {s s' : RState} (h : s.ops ops = .ok s') {k : Nat}
    (hk : s.pools[k]? ≠ some false) (hlt : k < s'.pools.length) :
    s'.pools[k]? = some true ↔ ROp.dropPool k ∉ ops := by
  induction ops generalizing s with
  | nil =>
    cases h
    rw [List.getElem?_eq_getElem hlt] at hk ⊢
    simpa using hk
  | cons op ops ih =>
    simp only [RState.ops] at h
    split at h
    · cases h
    · rename_i s1 h1
      cases op with
      | newPool =>
        cases h1
        simp only [List.mem_cons, reduceCtorEq, false_or]
        refine ih h ?_
        simp only
        rcases Nat.lt_trichotomy k s.pools.length with hx | rfl | hx
        · rw [List.getElem?_append_left hx]; exact hk
        · simp
        · rw [List.getElem?_eq_none (by simp; omega)]; simp
      | dropPool j =>
        simp only [RState.op] at h1
        split at h1
        · rename_i hj
          cases h1
          by_cases hx : j = k
          · subst hx
            have hd := ops_pool_dead h (k := j)
              (by simp [(List.getElem?_eq_some_iff.1 hj).1])
            simp [hd]
          · have := ih h (by simp only [List.getElem?_set, if_neg hx]; exact hk)
            rw [this]
            simp [Ne.symm hx]
        · cases h1
      | make j =>
        simp only [RState.op] at h1
        split at h1 <;> cases h1
        rw [ih h hk]; simp
      | copy r =>
        simp only [RState.op] at h1
        split at h1 <;> cases h1
        rw [ih h hk]; simp
      | define r p =>
        simp only [RState.op] at h1
        split at h1
        · split at h1
          · split at h1 <;> cases h1
            rw [ih h hk]; simp
          · cases h1
        · cases h1

theorem ops_pools_grow {ops : List ROp} {s s' : RState} (h : s.ops ops = .ok s') :
    s.pools.length ≤ s'.pools.length := by
  induction ops generalizing s with
  | nil => cases h; exact Nat.le_refl _
  | cons op ops ih =>
    simp only [RState.ops] at h
    split at h
    · cases h
    · rename_i s1 h1
      refine Nat.le_trans ?_ (ih h)
      cases op with
      | newPool => cases h1; simp
      | dropPool j =>
        simp only [RState.op] at h1
        split at h1 <;> cases h1
        simp
      | make j =>
        simp only [RState.op] at h1
        split at h1 <;> cases h1
        exact Nat.le_refl _
      | copy r =>
        simp only [RState.op] at h1
        split at h1 <;> cases h1
        exact Nat.le_refl _
      | define r p =>
        simp only [RState.op] at h1
        split at h1
        · split at h1
          · split at h1 <;> cases h1
            exact Nat.le_refl _
          · cases h1
        · cases h1

/-- Objects are made in pools that exist. -/
theorem objectPools_lt {ops : List ROp} {s s' : RState} (h : s.ops ops = .ok s') {k : Nat}
    (hk : k ∈ objectPools ops) : k < s'.pools.length := by
  induction ops generalizing s with
  | nil => cases hk
  | cons op ops ih =>
    simp only [RState.ops] at h
    split at h
    · cases h
    · rename_i s1 h1
      cases op with
      | make j =>
        simp only [objectPools, List.mem_cons] at hk
        rcases hk with rfl | hk
        · simp only [RState.op] at h1
          split at h1 <;> cases h1
          rename_i hj
          have := ops_pools_grow h
          exact Nat.lt_of_lt_of_le (List.getElem?_eq_some_iff.1 hj).1 this
        · exact ih h hk
      | _ => exact ih h hk

/-- The variables stand for objects that were made. -/
theorem varObjects_lt {ops : List ROp} {vars : List Nat} {n o : Nat} (hv : ∀ o ∈ vars, o < n)
    (ho : o ∈ varObjects vars n ops) : o < n + (objectPools ops).length := by
  induction ops generalizing vars n with
  | nil => exact hv o ho
  | cons op ops ih =>
    cases op with
    | make k =>
      have := ih (vars := vars ++ [n]) (n := n + 1) (fun o h => by
        simp only [List.mem_append, List.mem_singleton] at h
        rcases h with h | rfl
        · exact Nat.lt_succ_of_lt (hv _ h)
        · exact Nat.lt_succ_self _) ho
      simp only [objectPools, List.length_cons]
      omega
    | copy r =>
      refine ih (vars := vars ++ (vars[r]?).toList) (fun o h => ?_) ho
      simp only [List.mem_append, Option.mem_toList] at h
      rcases h with h | h
      · exact hv _ h
      · exact hv _ (List.mem_of_getElem? h)
    | _ => exact ih hv ho

theorem ops_append {s : RState} {as bs : List ROp} : s.ops (as ++ bs) = (do (← s.ops as).ops bs) := by
  induction as generalizing s with
  | nil => rfl
  | cons a as ih =>
    simp only [List.cons_append, RState.ops]
    cases s.op a with
    | error e => rfl
    | ok s' => exact ih

theorem ops_poolCount {ops : List ROp} {s s' : RState} (h : s.ops ops = .ok s') :
    s'.pools.length = s.pools.length + poolCount ops := by
  induction ops generalizing s with
  | nil => cases h; rfl
  | cons o ops ih =>
    simp only [RState.ops] at h
    split at h
    · cases h
    · rename_i s1 h1
      rw [ih h]
      cases o with
      | newPool => cases h1; simp [poolCount]; omega
      | dropPool k =>
        simp only [RState.op] at h1
        split at h1 <;> cases h1
        simp [poolCount]
      | make k =>
        simp only [RState.op] at h1
        split at h1 <;> cases h1
        simp [poolCount]
      | copy r =>
        simp only [RState.op] at h1
        split at h1 <;> cases h1
        rfl
      | define r p =>
        simp only [RState.op] at h1
        split at h1
        · split at h1
          · split at h1 <;> cases h1
            rfl
          · cases h1
        · cases h1

theorem pool_lives {before : List ROp} {s : RState} (h : RState.start.ops before = .ok s) (k : Nat) :
    s.pools[k]? = some true ↔ PoolLives before k := by
  have hc := ops_poolCount h
  simp only [RState.start, List.length_nil, Nat.zero_add] at hc
  constructor
  · intro hk
    have hlt := (List.getElem?_eq_some_iff.1 hk).1
    exact ⟨hc ▸ hlt, (ops_pool h (by simp [RState.start]) hlt).1 hk⟩
  · rintro ⟨hlt, hd⟩
    exact (ops_pool h (by simp [RState.start]) (hc ▸ hlt)).2 hd

/-- What makes sense is what does not err. -/
theorem op_ok_iff {before : List ROp} {s : RState} (h : RState.start.ops before = .ok s) (op : ROp) :
    (∃ s', s.op op = .ok s') ↔ Sensible before op := by
  have hv := ops_vars h
  have hs := ops_slots h
  simp only [RState.start, List.map_nil, List.nil_append, List.length_nil] at hv hs
  cases op with
  | newPool => exact ⟨fun _ => trivial, fun _ => ⟨_, rfl⟩⟩
  | dropPool k =>
    simp only [RState.op, Sensible, ← pool_lives h]
    split <;> simp_all
  | make k =>
    simp only [RState.op, Sensible, ← pool_lives h]
    split <;> simp_all
  | copy r =>
    simp only [RState.op, Sensible, ← hv]
    split
    · rename_i hr
      simp [(List.getElem?_eq_some_iff.1 hr).1]
    · rename_i hr
      simpa using hr
  | define r p =>
    simp only [RState.op, Sensible, ← hv, ← hs, ← pool_lives h]
    cases hr : s.vars[r]? with
    | none => simp
    | some o =>
      cases he : s.slots[o]? with
      | none =>
        constructor
        · rintro ⟨_, hx⟩; simp [he] at hx
        · rintro ⟨o', k, ho, hk, _⟩; cases ho; simp [he] at hk
      | some e =>
        simp only [he]
        constructor
        · rintro ⟨s', hx⟩
          split at hx
          · rename_i hp; exact ⟨o, e.pool, rfl, by simp [he], hp⟩
          · cases hx
        · rintro ⟨o', k, ho, hk, hp⟩
          cases ho
          simp only [List.getElem?_map, he, Option.map_some, Option.some.injEq] at hk
          subst hk
          exact ⟨_, if_pos hp⟩

theorem ops_ok_iff_aux {before : List ROp} {s : RState} (h : RState.start.ops before = .ok s)
    (ops : List ROp) : (∃ s', s.ops ops = .ok s') ↔
      ∀ mid op after, ops = mid ++ op :: after → Sensible (before ++ mid) op := by
  induction ops generalizing before s with
  | nil =>
    refine ⟨fun _ mid op after hx => ?_, fun _ => ⟨s, rfl⟩⟩
    cases mid <;> cases hx
  | cons o ops ih =>
    simp only [RState.ops]
    have ho := op_ok_iff h o
    constructor
    · rintro ⟨s', hx⟩ mid op after he
      split at hx
      · cases hx
      · rename_i s1 h1
        have h' : RState.start.ops (before ++ [o]) = .ok s1 := by
          simp [ops_append, h, bind, Except.bind, RState.ops, h1]
        cases mid with
        | nil => cases he; simpa using ho.1 ⟨s1, h1⟩
        | cons m mid =>
          cases he
          have := (ih h').1 ⟨s', hx⟩ mid op after rfl
          simpa using this
    · intro hall
      obtain ⟨s1, h1⟩ := ho.2 (by simpa using hall [] o ops rfl)
      have h' : RState.start.ops (before ++ [o]) = .ok s1 := by
        simp [ops_append, h, bind, Except.bind, RState.ops, h1]
      obtain ⟨s', hx⟩ := (ih h').2 fun mid op after he => by
        have := hall (o :: mid) op after (by rw [he]; rfl)
        simpa using this
      exact ⟨s', by simp only [h1]; exact hx⟩

end Abu
