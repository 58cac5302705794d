import Verif.Spec.Marked
import Verif.Proofs.Impl
/-
What the leaf parsers do, positions after failures included.
-/
namespace Abu

theorem LeafDoes.unique {t p i b j b' j'} (h : LeafDoes t p i b j) (h' : LeafDoes t p i b' j') :
    b = b' ∧ j = j' := by
  cases h with
  | char h1 h2 =>
    cases h' with
    | char => exact ⟨rfl, rfl⟩
    | charNo h => rw [h _ h1] at h2; cases h2
  | charNo h =>
    cases h' with
    | char h1 h2 => rw [h _ h1] at h2; cases h2
    | charNo => exact ⟨rfl, rfl⟩
  | charSymbol h1 h2 =>
    cases h' with
    | charSymbol => exact ⟨rfl, rfl⟩
    | charSymbolNo h => rw [h _ h1] at h2; cases h2
  | charSymbolNo h =>
    cases h' with
    | charSymbol h1 h2 => rw [h _ h1] at h2; cases h2
    | charSymbolNo => exact ⟨rfl, rfl⟩
  | strLit h => cases h' with | strLit => exact ⟨rfl, rfl⟩ | strLitNo h2 => exact absurd h h2
  | strLitNo h => cases h' with | strLit h2 => exact absurd h2 h | strLitNo => exact ⟨rfl, rfl⟩
  | symbol h1 h2 =>
    cases h' with
    | symbol h3 h4 => have := h2 _ h3; have := h4 _ h1; exact ⟨rfl, by omega⟩
    | symbolNo h3 => exact absurd h1 (h3 _)
  | symbolNo h =>
    cases h' with | symbol h3 h4 => exact absurd h3 (h _) | symbolNo => exact ⟨rfl, rfl⟩
  | uint h => cases h' with | uint => exact ⟨rfl, rfl⟩ | uintNo h2 => exact absurd h h2
  | uintNo h => cases h' with | uint h2 => exact absurd h2 h | uintNo => exact ⟨rfl, rfl⟩
  | int h1 h =>
    subst h1
    cases h' with
    | int h2 => subst h2; exact ⟨rfl, rfl⟩
    | intNo h2 h3 => subst h2; exact absurd h h3
  | intNo h1 h =>
    subst h1
    cases h' with
    | int h2 h3 => subst h2; exact absurd h3 h
    | intNo h2 => subst h2; exact ⟨rfl, rfl⟩
  | eoi h => cases h' with | eoi => exact ⟨rfl, rfl⟩ | eoiNo => omega
  | eoiNo h => cases h' with | eoi => omega | eoiNo => exact ⟨rfl, rfl⟩
  | pass => cases h'; exact ⟨rfl, rfl⟩
  | fail => cases h'; exact ⟨rfl, rfl⟩

section
variable {env : Env} {t : List Ch} {S : List Nat}

theorem run_strLit_no (s : List Ch) :
    ∀ (r : List Ch) (i k : Nat), s.drop k = r → ¬ r <+: t.drop i →
    ∃ f st', run env f (.strLit s) .nil .nil (.strLit k) (gw t i S) =
      .ok ((.FAILURE, st'), gw t (i + common r (t.drop i)) S) := by
  intro r
  induction r with
  | nil => intro i k _ h; exact absurd (List.nil_prefix) h
  | cons e r ih =>
    intro i k h hp
    obtain ⟨he, hr, _⟩ := drop_cons h
    cases ht : t.drop i with
    | nil =>
      refine ⟨1, .strLit k, ?_⟩
      rw [run_succ_eq]
      simp only [body, he]
      rw [exec_guarded_end (drop_nil ht).1]
      simp [exec, common]
    | cons c l =>
      obtain ⟨hc, hl, hlt⟩ := drop_cons ht
      by_cases hce : c = e
      · subst hce
        rw [ht] at hp
        obtain ⟨f, st', hf⟩ := ih (i + 1) (k + 1) hr (by
          rw [hl]; intro h; exact hp (by simpa using h))
        refine ⟨f + 1, st', ?_⟩
        rw [run_succ_eq]
        simp only [body, he]
        rw [exec_guarded_char hc]
        simp only [if_true]
        rw [exec_advance hc]
        simp only [exec, hf, hl, common, if_true]
        rw [show i + 1 + common r l = i + (common r l + 1) by omega]
      · refine ⟨1, .strLit k, ?_⟩
        rw [run_succ_eq]
        simp only [body, he]
        rw [exec_guarded_char hc]
        have : ¬ (e = c) := fun h => hce h.symm
        simp [hce, exec, this, common]

theorem run_symbol_no (root : Node) :
    ∀ (l : List Ch) (i : Nat) (n : Node), t.drop i = l → longest n l = none →
    ∃ f st', run env f (.symbol root) .nil .nil (.symbol n none) (gw t i S) =
      .ok ((.FAILURE, st'), gw t (i + n.walk l) S) := by
  intro l
  induction l with
  | nil =>
    intro i n h _
    refine ⟨1, .symbol n none, ?_⟩
    rw [run_succ_eq]
    simp only [body]
    rw [exec_guarded_end (drop_nil h).1]
    simp [exec, Node.walk]
  | cons c l ih =>
    intro i n h hl
    obtain ⟨hc, hl', hlt⟩ := drop_cons h
    cases hf : n.child.find c with
    | none =>
      refine ⟨1, .symbol n none, ?_⟩
      rw [run_succ_eq]
      simp only [body]
      rw [exec_guarded_char hc]
      simp [exec, hf, Node.walk]
    | some n' =>
      simp only [longest, hf] at hl
      cases hlo : longest n' l with
      | some b => rw [hlo] at hl; cases hl
      | none =>
        rw [hlo] at hl
        have hv : n'.val = none := by simpa using hl
        obtain ⟨f, st', hr⟩ := ih (i + 1) n' hl' hlo
        refine ⟨f + 1, st', ?_⟩
        rw [run_succ_eq]
        simp only [body]
        rw [exec_guarded_char hc]
        simp only [hf]
        rw [exec_advance hc]
        simp only [hv, exec, hr, Node.walk, hf]
        rw [show i + 1 + n'.walk l = i + (n'.walk l + 1) by omega]

/-- The result that goes with an outcome. -/
def res : Bool → Res
  | true => .SUCCESS
  | false => .FAILURE

theorem res_inj {a b : Bool} (h : res a = res b) : a = b := by
  cases a <;> cases b <;> first | rfl | cases h

theorem digitRes_enough {mn mx k : Nat} :
    (digitRes mn mx 0 k = .SUCCESS ∧ enoughDigits mn mx k) ∨
      (digitRes mn mx 0 k = .FAILURE ∧ ¬ enoughDigits mn mx k) := by
  simp only [digitRes, enough, enoughDigits, Nat.zero_add]
  split
  · rename_i h; exact .inl ⟨rfl, .inr h⟩
  · rename_i h
    split
    · rename_i h2; exact .inl ⟨rfl, .inl h2⟩
    · rename_i h2; exact .inr ⟨rfl, fun h3 => h3.elim h2 h⟩

/-- The parser class of a leaf pattern. -/
inductive LeafOf : Prog → Pat → Prop
  | char {s} : LeafOf (.char s) (.char s)
  | charSymbol {m} : LeafOf (.charSymbol m) (.charSymbol m)
  | strLit {s} : LeafOf (.strLit s) (.strLit s)
  | symbol {n} : LeafOf (.symbol n) (.symbol n)
  | int {b mn mx} : LeafOf (.int b mn mx) (.int b mn mx)
  | uint {b mn mx} : LeafOf (.uint b mn mx) (.uint b mn mx)
  | eoi : LeafOf .eoi .eoi
  | pass : LeafOf .pass .pass
  | fail : LeafOf .fail .fail

theorem LeafOf.isLeaf {P p} (h : LeafOf P p) : P.isLeaf = true := by cases h <;> rfl

theorem leaf_does {P p} (h : LeafOf P p) (i : Nat) (S : List Nat) :
    ∃ n b st' j, run env n P .nil .nil (fresh P) (gw t i S) = .ok ((res b, st'), gw t j S) ∧
      LeafDoes t p i b j := by
  cases h with
  | @char s =>
    cases hc : t[i]? with
    | none =>
      refine ⟨1, false, .unit, i, ?_, .charNo fun c h => by rw [hc] at h; cases h⟩
      rw [run_succ_eq]
      simp only [fresh, body]
      rw [exec_guarded_end (List.getElem?_eq_none_iff.1 hc)]
      rfl
    | some ch =>
      by_cases hv : s.isValid ch = true
      · refine ⟨1, true, .unit, i + 1, ?_, .char hc hv⟩
        rw [run_succ_eq]
        simp only [fresh, body]
        rw [exec_guarded_char hc]
        simp only [hv, if_true, exec_mem, Store.op]
        rw [exec_advance hc]
        rfl
      · have hv : s.isValid ch = false := by simpa using hv
        refine ⟨1, false, .unit, i, ?_, .charNo fun c h => by rw [hc] at h; cases h; exact hv⟩
        rw [run_succ_eq]
        simp only [fresh, body]
        rw [exec_guarded_char hc]
        simp [hv, exec, res]
  | @charSymbol m =>
    cases hc : t[i]? with
    | none =>
      refine ⟨1, false, .unit, i, ?_, .charSymbolNo fun c h => by rw [hc] at h; cases h⟩
      rw [run_succ_eq]
      simp only [fresh, body]
      rw [exec_guarded_end (List.getElem?_eq_none_iff.1 hc)]
      rfl
    | some ch =>
      cases hl : m.find? (fun e => e.1 == ch) with
      | none =>
        refine ⟨1, false, .unit, i, ?_, .charSymbolNo fun c h => by
          rw [hc] at h; cases h; rw [lookup_eq_find, hl]; rfl⟩
        rw [run_succ_eq]
        simp only [fresh, body]
        rw [exec_guarded_char hc]
        simp [hl, exec, res]
      | some e =>
        obtain ⟨d, v⟩ := e
        refine ⟨1, true, .unit, i, ?_, .charSymbol (v := v) hc (by rw [lookup_eq_find, hl]; rfl)⟩
        rw [run_succ_eq]
        simp only [fresh, body]
        rw [exec_guarded_char hc]
        simp [hl, exec, exec_mem, Store.op, res]
  | @strLit s =>
    by_cases hp : s <+: t.drop i
    · obtain ⟨f, st', i', hf, hi⟩ := run_strLit (env := env) (t := t) (S := S) (μ := Unit) s .nil
        .nil s i 0 () rfl
      rw [if_pos hp, hi hp] at hf
      exact ⟨f, true, st', _, hf, .strLit hp⟩
    · obtain ⟨f, st', hf⟩ := run_strLit_no (env := env) (t := t) (S := S) s s i 0 rfl hp
      exact ⟨f, false, st', _, hf, .strLitNo hp⟩
  | @symbol root =>
    cases hl : longest root (t.drop i) with
    | none =>
      obtain ⟨f, st', hf⟩ := run_symbol_no (env := env) (t := t) (S := S) root (t.drop i) i root
        rfl hl
      exact ⟨f, false, st', _, hf, .symbolNo fun key hk => longest_none hl key hk.1 hk.2.1 hk.2.2⟩
    | some b =>
      obtain ⟨f, st', fi, hf⟩ := run_symbol (env := env) (t := t) (S := S) (μ := Unit) root .nil
        .nil () (t.drop i) i root none 0 rfl
      obtain ⟨k, v⟩ := b
      rw [hl] at hf
      simp only [symOut, outOf_unit] at hf
      obtain ⟨⟨h1, h2, h3⟩, h4⟩ := longest_some hl
      refine ⟨f, true, st', i + k, hf, ?_⟩
      have hk : ((t.drop i).take k).length = k := by rw [List.length_take]; omega
      have := LeafDoes.symbol (t := t) (root := root) (i := i) (key := (t.drop i).take k)
        ⟨by intro h; rw [h] at hk; simp at hk; omega, by rw [h3]; rfl, List.take_prefix _ _⟩
        (fun key' hk' => by rw [hk]; exact h4 _ hk'.1 hk'.2.1 hk'.2.2)
      rwa [hk] at this
  | @int b mn mx =>
    obtain ⟨f, st', hf⟩ := run_int (env := env) (t := t) (S := S) (i := i) (μ := Unit) b mn mx .nil
      .nil ()
    rw [outOf_unit] at hf
    rcases digitRes_enough (mn := mn) (mx := mx)
      (k := digitRun b mx (t.drop (i + signLen (t.drop i)))) with ⟨h1, h2⟩ | ⟨h1, h2⟩
    · rw [h1] at hf; exact ⟨f, true, st', _, hf, .int rfl h2⟩
    · rw [h1] at hf; exact ⟨f, false, st', _, hf, .intNo rfl h2⟩
  | @uint b mn mx =>
    obtain ⟨f, st', hf⟩ := run_uint (env := env) (t := t) (S := S) (μ := Unit) b mn mx .nil .nil
      (t.drop i) i 0 () rfl (by omega)
    rw [outOf_unit, Nat.sub_zero] at hf
    rcases digitRes_enough (mn := mn) (mx := mx) (k := digitRun b mx (t.drop i)) with
      ⟨h1, h2⟩ | ⟨h1, h2⟩
    · rw [h1] at hf; exact ⟨f, true, st', _, hf, .uint h2⟩
    · rw [h1] at hf; exact ⟨f, false, st', _, hf, .uintNo h2⟩
  | eoi =>
    rcases Nat.lt_or_ge i t.length with h | h
    · refine ⟨1, false, .unit, i, ?_, .eoiNo h⟩
      rw [run_succ_eq]
      simp only [fresh, body]
      rw [exec_guarded_char (List.getElem?_eq_getElem h)]
      rfl
    · refine ⟨1, true, .unit, i, ?_, .eoi h⟩
      rw [run_succ_eq]
      simp only [fresh, body]
      rw [exec_guarded_end h]
      rfl
  | pass => exact ⟨1, true, .unit, i, rfl, .pass⟩
  | fail => exact ⟨1, false, .unit, i, rfl, .fail⟩

end

end Abu
