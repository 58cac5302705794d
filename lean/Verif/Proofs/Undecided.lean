import Verif.Proofs.Scan
import Verif.Proofs.Leaf
/-
Leaf patterns that wait for more text have reason to.
-/
namespace Abu

theorem symbol_upto {root : Node} {t : List Ch} : ∀ n : Nat,
    (∃ key, KeyAt root t 0 key ∧ ∀ key', KeyAt root t 0 key' → key'.length ≤ n → key'.length ≤ key.length) ∨
    ∀ key, KeyAt root t 0 key → ¬ key.length ≤ n := by
  intro n
  induction n with
  | zero =>
    refine .inr fun key hk hl => hk.1 (List.length_eq_zero_iff.1 (by omega))
  | succ n ih =>
    by_cases h : ∃ key, KeyAt root t 0 key ∧ key.length = n + 1
    · obtain ⟨key, h1, h2⟩ := h
      exact .inl ⟨key, h1, fun key' _ h => by omega⟩
    · rcases ih with ⟨key, h1, h2⟩ | h1
      · refine .inl ⟨key, h1, fun key' h3 h4 => h2 key' h3 ?_⟩
        have : key'.length ≠ n + 1 := fun e => h ⟨key', h3, e⟩
        omega
      · refine .inr fun key h3 h4 => h1 key h3 ?_
        have : key.length ≠ n + 1 := fun e => h ⟨key, h3, e⟩
        omega

theorem symbol_total (env : Env) (root : Node) (t : List Ch) : ∃ o, Peg env t (.symbol root) 0 o := by
  have hl : ∀ {key}, KeyAt root t 0 key → key.length ≤ t.length := fun h => by
    simpa using h.2.2.length_le
  rcases symbol_upto (root := root) (t := t) t.length with ⟨key, h1, h2⟩ | h1
  · exact ⟨_, .symbol h1 fun key' h => h2 key' h (hl h)⟩
  · exact ⟨_, .symbolNo fun key h => h1 key h (hl h)⟩

/-- Every leaf pattern has an outcome. -/
theorem leaf_total {env : Env} {p : Pat} (hp : p.isLeaf = true) (t : List Ch) : ∃ o, Peg env t p 0 o := by
  cases p with
  | char s =>
    by_cases h : ∃ c, t[0]? = some c ∧ s.isValid c = true
    · obtain ⟨c, h1, h2⟩ := h; exact ⟨_, .char h1 h2⟩
    · exact ⟨_, .charNo fun c hc => by simpa using fun h' => h ⟨c, hc, h'⟩⟩
  | charSymbol tab =>
    by_cases h : ∃ c v, t[0]? = some c ∧ tab.lookup c = some v
    · obtain ⟨c, v, h1, h2⟩ := h; exact ⟨_, .charSymbol h1 h2⟩
    · refine ⟨_, .charSymbolNo fun c hc => ?_⟩
      cases hl : tab.lookup c with
      | none => rfl
      | some v => exact absurd ⟨c, v, hc, hl⟩ h
  | strLit s =>
    by_cases h : s <+: t.drop 0
    · exact ⟨_, .strLit h⟩
    · exact ⟨_, .strLitNo h⟩
  | symbol root => exact symbol_total env root t
  | uint b mn mx =>
    by_cases h : mn ≤ digitRun b mx (t.drop 0)
    · exact ⟨_, .uint h⟩
    · exact ⟨_, .uintNo (by omega)⟩
  | int b mn mx =>
    by_cases h : mn ≤ digitRun b mx (t.drop (0 + signLen (t.drop 0)))
    · exact ⟨_, .int rfl h⟩
    · exact ⟨_, .intNo rfl (by omega)⟩
  | eoi =>
    by_cases h : t.length ≤ 0
    · exact ⟨_, .eoi h⟩
    · exact ⟨_, .eoiNo (by omega)⟩
  | pass => exact ⟨_, .pass⟩
  | fail => exact ⟨_, .fail⟩
  | _ => cases hp

theorem digitValid_zero {b : Nat} (hb : 1 ≤ b) : digitValid b 48 = true := by
  have : narrow 48 = 48 := by decide
  simp only [digitValid, this]
  split
  · simp; omega
  · simp

theorem digitRun_all {b mx : Nat} {l : List Ch} (h : ∀ c ∈ l, digitValid b c = true)
    (hm : mx = 0 ∨ l.length ≤ mx) : digitRun b mx l = l.length := by
  have : l.takeWhile (digitValid b) = l := by
    clear hm
    induction l with
    | nil => rfl
    | cons c l ih =>
      rw [List.takeWhile_cons, h c (by simp), if_pos rfl, ih fun x hx => h x (by simp [hx])]
  simp only [digitRun, this]
  split <;> omega

/-- Zeros that make a number long enough, and longer. -/
theorem digits_more {b mn mx : Nat} {u : List Ch} (hb : 1 ≤ b) (hm : mx = 0 ∨ mn ≤ mx) (h : DigitsOpen b mx u) :
    digitRun b mx u = u.length ∧ ∃ z, digitRun b mx (u ++ z) = u.length + z.length ∧
      mn ≤ u.length + z.length ∧ 0 < z.length ∧ ∀ c ∈ u ++ z, digitValid b c = true := by
  obtain ⟨h1, h2⟩ := h
  have hv : ∀ c ∈ u ++ List.replicate (max 1 (mn - u.length)) 48, digitValid b c = true := by
    intro c hc
    rcases List.mem_append.1 hc with hc | hc
    · exact h1 c hc
    · rw [(List.mem_replicate.1 hc).2]; exact digitValid_zero hb
  refine ⟨digitRun_all h1 (by omega), List.replicate (max 1 (mn - u.length)) 48, ?_, ?_, ?_, hv⟩
  · rw [digitRun_all hv, List.length_append]
    · rw [List.length_append, List.length_replicate]; omega
  · rw [List.length_replicate]; omega
  · rw [List.length_replicate]; omega

theorem signLen_digits {b : Nat} {u : List Ch} (h : ∀ c ∈ u, digitValid b c = true) : signLen u = 0 := by
  cases u with
  | nil => rfl
  | cons c u =>
    have := h c (by simp)
    have h1 := sign_not_digit (b := b)
    simp only [signLen]
    rw [if_neg]
    rintro (rfl | rfl)
    · rw [h1.1] at this; cases this
    · rw [h1.2] at this; cases this

theorem Undecided.of_open {env : Env} {p : Pat} {u : List Ch} (hp : p.Useful) (h : p.Open u) :
    Undecided env p u := by
  cases hp with
  | char c hc =>
    obtain rfl : u = [] := h
    exact ⟨[], [c], _, _, .charNo (by simp), .char rfl hc, by simp⟩
  | @strLit s =>
    obtain ⟨⟨x, rfl⟩, h2⟩ := h
    refine ⟨[], x, _, _, .strLitNo ?_, .strLit (by simp), by simp⟩
    intro h'
    have := h'.length_le
    simp only [List.append_nil, List.drop_zero, List.length_append] at this
    exact h2 (by rw [List.length_eq_zero_iff.1 (by omega : x.length = 0), List.append_nil])
  | @symbol entries root hnd hb he =>
    have hf := buildTrie_fruitful hnd hb
    have hg : ∃ x, x ≠ [] ∧ (root.get (u ++ x)).isSome = true := by
      rcases (nodeOpen_iff hf).1 h with rfl | h
      · obtain ⟨⟨k, v⟩, h1, h2⟩ := he
        obtain ⟨root', hb', hg⟩ := buildTrie_get entries hnd
        rw [hb] at hb'
        cases hb'
        exact ⟨k, h2, by rw [List.nil_append, hg, lookup_of_mem hnd h1]; rfl⟩
      · exact h
    obtain ⟨x, h1, h2⟩ := hg
    obtain ⟨o, ho⟩ := symbol_total env root (u ++ [])
    refine ⟨[], x, o, some (0 + (u ++ x).length), ho, .symbol ⟨by simp [h1], h2, by simp⟩ ?_, ?_⟩
    · intro key' h
      simpa using h.2.2.length_le
    · rintro rfl
      have := ho.within (Nat.zero_le _) _ rfl
      have h3 := List.length_pos_iff.2 h1
      simp only [List.append_nil, List.length_append] at this
      omega
  | @uint b mn mx hb hm =>
    obtain ⟨h1, z, h2, h3, h4, _⟩ := digits_more (mn := mn) hb hm h
    obtain ⟨o, ho⟩ := leaf_total (env := env) (p := .uint b mn mx) rfl (u ++ [])
    refine ⟨[], z, o, _, ho, .uint (by rw [List.drop_zero, h2]; exact h3), ?_⟩
    rintro rfl
    have := ho.within (Nat.zero_le _) _ rfl
    rw [List.drop_zero, h2, List.append_nil] at this
    omega
  | @int b mn mx hb hm =>
    obtain ⟨sg, ds, rfl, hs, hd⟩ := h
    obtain ⟨h1, z, h2, h3, h4, h5⟩ := digits_more (mn := mn) hb hm hd
    obtain ⟨o, ho⟩ := leaf_total (env := env) (p := .int b mn mx) rfl (sg ++ ds ++ [])
    have hz : signLen (sg ++ ds ++ z) = sg.length := by
      rcases hs with rfl | rfl | rfl
      · rw [List.nil_append]
        exact signLen_digits h5
      · rfl
      · rfl
    have hd' : (sg ++ ds ++ z).drop sg.length = ds ++ z := by
      rw [List.append_assoc, List.drop_left]
    refine ⟨[], z, o, _, ho, .int (j := sg.length) (by rw [List.drop_zero, hz]; omega)
      (by rw [hd', h2]; exact h3), ?_⟩
    rintro rfl
    have := ho.within (Nat.zero_le _) _ rfl
    rw [hd', h2, List.append_nil, List.length_append] at this
    omega
  | eoi =>
    obtain rfl : u = [] := h
    exact ⟨[], [0], _, _, .eoi (by simp), .eoiNo (by simp), by simp⟩
  | pass => exact h.elim
  | fail => exact h.elim

end Abu
