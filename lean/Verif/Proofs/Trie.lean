import Verif.Spec.Peg
/-
The trie of a symbol table against the table.
-/
namespace Abu

/-- `child[c]` before an update. -/
def Kids.at (c : Ch) (k : Kids) : Node := (k.find c).getD (.mk none .nil)

theorem Kids.alter_some {c : Ch} {f : Node → Option Node} : ∀ {k : Kids} {n'},
    f (k.at c) = some n' → ∃ k', k.alter c f = some k' ∧
      ∀ d, k'.find d = if d = c then some n' else k.find d
  | .nil, n', h => by
    refine ⟨.cons c n' .nil, ?_, ?_⟩
    · simp only [Kids.at, Kids.find, Option.getD_none] at h
      simp [Kids.alter, h]
    · intro d; simp [Kids.find]
  | .cons e n rest, n', h => by
    by_cases hce : c = e
    · subst hce
      simp only [Kids.at, Kids.find, if_true, Option.getD_some] at h
      refine ⟨.cons c n' rest, ?_, ?_⟩
      · simp [Kids.alter, h]
      · intro d
        simp only [Kids.find]
        split <;> rfl
    · have h' : f (rest.at c) = some n' := by
        simpa only [Kids.at, Kids.find, if_neg hce] using h
      obtain ⟨k', h1, h2⟩ := Kids.alter_some h'
      refine ⟨.cons e n k', ?_, ?_⟩
      · simp [Kids.alter, hce, h1]
      · intro d
        simp only [Kids.find]
        by_cases hde : d = e
        · subst hde
          rw [if_pos rfl, if_neg (fun h => hce h.symm)]
          exact (if_pos rfl).symm
        · rw [if_neg hde, if_neg hde]; exact h2 d

theorem Node.get_empty : ∀ key : List Ch, (Node.mk none .nil).get key = none
  | [] => rfl
  | _ :: _ => rfl

theorem Node.get_cons {n : Node} {c key} : n.get (c :: key) = (n.child.at c).get key := by
  simp only [Node.get, Kids.at]
  cases n.child.find c with
  | none => exact (Node.get_empty key).symm
  | some n' => rfl

theorem Node.insert_some : ∀ {key : List Ch} {v : Val} {n : Node}, n.get key = none →
    ∃ n', n.insert key v = some n' ∧ ∀ k, n'.get k = if k = key then some v else n.get k
  | [], v, .mk val kids, h => by
    change val = none at h
    subst h
    refine ⟨.mk (some v) kids, rfl, ?_⟩
    intro k
    cases k with
    | nil => rfl
    | cons d k => rfl
  | c :: key, v, .mk val kids, h => by
    rw [Node.get_cons] at h
    obtain ⟨n', h1, h2⟩ := Node.insert_some (v := v) h
    obtain ⟨k', h3, h4⟩ := Kids.alter_some h1
    refine ⟨.mk val k', ?_, ?_⟩
    · simp only [Node.insert]
      change (kids.alter c (Node.insert key v)).map _ = _
      rw [show kids.alter c (Node.insert key v) = some k' from h3]
      rfl
    · intro k
      cases k with
      | nil => rfl
      | cons d k =>
        rw [Node.get_cons, Node.get_cons]
        have hat : (Node.mk val k').child.at d = if d = c then n' else kids.at d := by
          simp only [Kids.at, Node.child, h4]
          split <;> rfl
        rw [hat]
        by_cases hd : d = c
        · subst hd
          rw [if_pos rfl, h2]
          by_cases hk : k = key
          · subst hk; simp
          · rw [if_neg hk, if_neg (by simpa using hk)]
        · rw [if_neg hd, if_neg (by simp [hd])]; rfl

/-- A trie built from entries with different keys holds exactly the entries. -/
theorem foldlM_trie : ∀ (entries : List (List Ch × Val)) (n : Node),
    (entries.map Prod.fst).Nodup → (∀ e ∈ entries, n.get e.1 = none) →
    ∃ root, entries.foldlM (fun n e => n.insert e.1 e.2) n = some root ∧
      ∀ k, root.get k = match entries.lookup k with
        | some v => some v
        | none => n.get k
  | [], n, _, _ => ⟨n, rfl, fun _ => rfl⟩
  | (key, v) :: entries, n, hnd, hn => by
    obtain ⟨n', h1, h2⟩ := Node.insert_some (v := v) (hn (key, v) (by simp))
    rw [List.map_cons, List.nodup_cons] at hnd
    have hne : ∀ e ∈ entries, e.1 ≠ key := fun e he h =>
      hnd.1 (List.mem_map.2 ⟨e, he, h⟩)
    obtain ⟨root, h3, h4⟩ := foldlM_trie entries n' hnd.2 (by
      intro e he
      rw [h2, if_neg (hne e he)]
      exact hn e (by simp [he]))
    refine ⟨root, ?_, ?_⟩
    · rw [List.foldlM_cons]
      change (n.insert key v).bind _ = _
      rw [h1]; exact h3
    · intro k
      rw [h4]
      by_cases hk : k = key
      · subst hk
        have : entries.lookup k = none := by
          rw [List.lookup_eq_none_iff]
          intro e he
          have := hne e he
          simpa using fun h : k = e.1 => this h.symm
        rw [this, List.lookup_cons_self]
        simp only [h2, if_true]
      · have hb : (k == key) = false := by simpa using hk
        rw [List.lookup_cons, hb]
        cases entries.lookup k with
        | some x => rfl
        | none => simp only [h2, if_neg hk]

theorem buildTrie_get (entries : List (List Ch × Val)) (hnd : (entries.map Prod.fst).Nodup) :
    ∃ root, buildTrie entries = some root ∧ ∀ k, root.get k = entries.lookup k := by
  obtain ⟨root, h1, h2⟩ := foldlM_trie entries (.mk none .nil) hnd fun e _ => Node.get_empty _
  refine ⟨root, h1, fun k => ?_⟩
  rw [h2]
  cases entries.lookup k with
  | some v => rfl
  | none => exact Node.get_empty k

theorem lookup_of_mem {entries : List (List Ch × Val)} (hnd : (entries.map Prod.fst).Nodup)
    {k v} (h : (k, v) ∈ entries) : entries.lookup k = some v := by
  induction entries with
  | nil => simp at h
  | cons e entries ih =>
    rw [List.map_cons, List.nodup_cons] at hnd
    rcases List.mem_cons.1 h with rfl | h'
    · simp
    · have : k ≠ e.1 := fun hk => hnd.1 (List.mem_map.2 ⟨_, h', hk⟩)
      obtain ⟨e1, e2⟩ := e
      have hb : (k == e1) = false := by simpa using this
      rw [List.lookup_cons, hb]
      exact ih hnd.2 h'

end Abu
