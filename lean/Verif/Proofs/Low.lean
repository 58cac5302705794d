import Verif.Proofs.Complete
import Verif.Spec.Terminates
/-
Parsers never go back before the place where they were constructed, and those that are seen to
consume do.
-/
namespace Abu

mutual
/-- `Pat.eats` for parser classes. -/
def Prog.eats (c : Nat → Bool) : Prog → Bool
  | .char _ => true
  | .charSymbol _ => false
  | .strLit s => !s.isEmpty
  | .symbol _ => true
  | .int _ mn _ => decide (0 < mn)
  | .uint _ mn _ => decide (0 < mn)
  | .eoi => false
  | .pass => false
  | .fail => true
  | .seq _ ps => Prog.someEats c ps
  | .alt ps => Prog.allEat c ps
  | .rep mn _ p => decide (0 < mn) && p.eats c
  | .opt _ => false
  | .not _ => false
  | .discard p => p.eats c
  | .lexeme p => p.eats c
  | .bindDst p => p.eats c
  | .construct _ p => p.eats c
  | .action _ p => p.eats c
  | .except op _ => op.eats c
  | .list _ _ => false
  | .withSkipper p => p.eats c
  | .recur id _ => c id
  | .atomic p => p.eats c
  | .clean p => p.eats c
  | .skip _ p => p.eats c
def Prog.someEats (c : Nat → Bool) : List Prog → Bool
  | [] => false
  | p :: ps => p.eats c || Prog.someEats c ps
def Prog.allEat (c : Nat → Bool) : List Prog → Bool
  | [] => true
  | p :: ps => p.eats c && Prog.allEat c ps
end

theorem Prog.someEats_iff {c : Nat → Bool} {ps : List Prog} :
    Prog.someEats c ps = true ↔ ∃ (j : Nat) (p : Prog), ps[j]? = some p ∧ p.eats c = true := by
  induction ps with
  | nil => simp [Prog.someEats]
  | cons p ps ih =>
    rw [Prog.someEats, Bool.or_eq_true, ih]
    constructor
    · rintro (h | ⟨j, q, hj, hq⟩)
      · exact ⟨0, p, rfl, h⟩
      · exact ⟨j + 1, q, hj, hq⟩
    · rintro ⟨j, q, hj, hq⟩
      cases j with
      | zero => cases hj; exact .inl hq
      | succ j => exact .inr ⟨j, q, hj, hq⟩

theorem Prog.allEat_get {c : Nat → Bool} {ps : List Prog} (h : Prog.allEat c ps = true) {j : Nat} {p : Prog}
    (hj : ps[j]? = some p) : p.eats c = true := by
  induction ps generalizing j with
  | nil => cases hj
  | cons q ps ih =>
    rw [Prog.allEat, Bool.and_eq_true] at h
    cases j with
    | zero => cases hj; exact h.1
    | succ j => exact ih h.2 hj

theorem adapt_eats (c : Nat → Bool) (sk : Prog) (a b : Bool) (raw : Prog) :
    (adapt sk a b raw).eats c = raw.eats c := by
  cases h : sk.isFail <;> cases a <;> cases b <;> simp [adapt, h, Prog.eats]

mutual
theorem elabP_eats (c : Nat → Bool) : ∀ (p : Pat) (sk : Prog) (r : Req),
    (elabP sk r p).eats c = p.eats c
  | .char _, sk, r | .charSymbol _, sk, r | .strLit _, sk, r | .symbol _, sk, r
  | .int .., sk, r | .uint .., sk, r | .eoi, sk, r | .pass, sk, r | .fail, sk, r
  | .recur .., sk, r | .opt _, sk, r | .not _, sk, r | .list _ _, sk, r => by
    rw [elabP, adapt_eats]; rfl
  | .seq ps, sk, r => by
    rw [elabP, adapt_eats, Prog.eats, Pat.eats]; exact (elabPs_eats c ps sk _).1
  | .alt ps, sk, r => by
    rw [elabP, adapt_eats, Prog.eats, Pat.eats]; exact (elabPs_eats c ps sk _).2
  | .rep mn mx p, sk, r => by
    rw [elabP, adapt_eats, Prog.eats, Pat.eats, elabP_eats c p]
  | .discard p, sk, r => by rw [elabP, adapt_eats, Prog.eats, Pat.eats]; exact elabP_eats c p _ _
  | .lexeme p, sk, r => by rw [elabP, adapt_eats, Prog.eats, Pat.eats]; exact elabP_eats c p _ _
  | .bindDst p, sk, r => by rw [elabP, adapt_eats, Prog.eats, Pat.eats]; exact elabP_eats c p _ _
  | .construct _ p, sk, r => by rw [elabP, adapt_eats, Prog.eats, Pat.eats]; exact elabP_eats c p _ _
  | .action _ p, sk, r => by rw [elabP, adapt_eats, Prog.eats, Pat.eats]; exact elabP_eats c p _ _
  | .except op neg, sk, r => by
    rw [elabP, adapt_eats, Prog.eats, Pat.eats]; exact elabP_eats c op _ _
  | .withSkipper p s, sk, r => by
    rw [elabP, adapt_eats, Prog.eats, Pat.eats]; exact elabP_eats c p _ _
theorem elabPs_eats (c : Nat → Bool) : ∀ (ps : List Pat) (sk : Prog) (r : Req),
    Prog.someEats c (elabPs sk r ps) = Pat.someEats c ps ∧
    Prog.allEat c (elabPs sk r ps) = Pat.allEat c ps
  | [], sk, r => ⟨rfl, rfl⟩
  | p :: ps, sk, r => by
    simp only [elabPs, Prog.someEats, Pat.someEats, Prog.allEat, Pat.allEat, elabP_eats c p sk r,
      (elabPs_eats c ps sk r).1, (elabPs_eats c ps sk r).2, and_self]
end

/-! ### Leaves -/

/-- Positions between `lo` and the end of the text. -/
def Within (t : List Ch) (lo : Nat) (l : List Nat) : Prop := ∀ x ∈ l, lo ≤ x ∧ x ≤ t.length

theorem Within.mono {t lo b l} (h : Within t b l) (hb : lo ≤ b) : Within t lo l :=
  fun x hx => ⟨Nat.le_trans hb (h x hx).1, (h x hx).2⟩

theorem Within.append {t lo l l'} (h : Within t lo l) (h' : Within t lo l') :
    Within t lo (l ++ l') := by
  intro x hx
  rcases List.mem_append.1 hx with h1 | h1
  · exact h x h1
  · exact h' x h1

theorem Within.left {t lo l l'} (h : Within t lo (l ++ l')) : Within t lo l :=
  fun x hx => h x (List.mem_append_left _ hx)

theorem Within.right {t lo l l'} (h : Within t lo (l ++ l')) : Within t lo l' :=
  fun x hx => h x (List.mem_append_right _ hx)

theorem Within.nil {t lo} : Within t lo [] := fun x hx => by cases hx

theorem Within.replicate {t lo n i} (h : lo ≤ i) (h' : i ≤ t.length) :
    Within t lo (List.replicate n i) := fun x hx => by
  rw [(List.mem_replicate.1 hx).2]; exact ⟨h, h'⟩

/-- Outcome of a parser constructed at `lo`. -/
structure Ended (t : List Ch) (c : Nat → Bool) (lo : Nat) (P : Prog) (r : Res) (i : Nat)
    (L : List Nat) : Prop where
  low : lo ≤ i
  high : i ≤ t.length
  left : Within t lo L
  ate : r = .SUCCESS → P.eats c = true → lo < i

section
variable {env : Env} {t : List Ch}

theorem strLit_low {s : List Ch} : ∀ {n k i S r st' i' S'}, i ≤ t.length →
    run env n (.strLit s) .nil .nil (.strLit k) (gw t i S) = .ok ((r, st'), gw t i' S') →
    i ≤ i' ∧ i' ≤ t.length := by
  intro n
  induction n with
  | zero => intro k i S r st' i' S' _ h; cases h
  | succ n ih =>
    intro k i S r st' i' S' hi h
    rw [run_succ_eq] at h
    simp only [body] at h
    cases hs : s[k]? with
    | none => simp only [hs, exec] at h; cases h; exact ⟨Nat.le_refl _, hi⟩
    | some e =>
      simp only [hs] at h
      cases hc : t[i]? with
      | none =>
        rw [exec_guarded_end (List.getElem?_eq_none_iff.1 hc)] at h
        simp only [exec] at h; cases h; exact ⟨Nat.le_refl _, hi⟩
      | some ch =>
        have hlt := (List.getElem?_eq_some_iff.1 hc).1
        rw [exec_guarded_char hc] at h
        by_cases he : ch = e
        · simp only [he, if_true] at h
          rw [exec_advance hc] at h
          simp only [exec] at h
          have := ih hlt h
          omega
        · simp only [he, if_false, exec] at h; cases h; exact ⟨Nat.le_refl _, hi⟩

theorem symbol_low {root : Node} {lo : Nat} : ∀ {n k v p i S r st' i' S'}, lo ≤ i → i ≤ t.length →
    lo ≤ p → p ≤ t.length →
    run env n (.symbol root) .nil .nil (.symbol k v) (gw t i (symSaved v p S)) =
      .ok ((r, st'), gw t i' S') →
    lo ≤ i' ∧ i' ≤ t.length := by
  intro n
  induction n with
  | zero => intro k v p i S r st' i' S' _ _ _ _ h; cases h
  | succ n ih =>
    intro k v p i S r st' i' S' hlo hi hp hp' h
    rw [run_succ_eq] at h
    simp only [body] at h
    cases hc : t[i]? with
    | none =>
      rw [exec_guarded_end (List.getElem?_eq_none_iff.1 hc)] at h
      cases v with
      | none => simp only [exec] at h; cases h; exact ⟨hlo, hi⟩
      | some x => cases h; exact ⟨hp, hp'⟩
    | some ch =>
      have hlt := (List.getElem?_eq_some_iff.1 hc).1
      rw [exec_guarded_char hc] at h
      cases hf : k.child.find ch with
      | none =>
        simp only [hf] at h
        cases v with
        | none => simp only [exec] at h; cases h; exact ⟨hlo, hi⟩
        | some x => cases h; exact ⟨hp, hp'⟩
      | some k' =>
        simp only [hf] at h
        rw [exec_advance hc] at h
        cases hv : k'.val with
        | none =>
          simp only [hv, exec] at h
          exact ih (by omega) hlt hp hp' h
        | some x =>
          simp only [hv] at h
          have hcancel : ∀ (f : Nat) (k : Cmd Step),
              exec (run env f) (if v.isSome = true then Cmd.cancel k else k)
              (gw t (i + 1) (symSaved v p S)) =
              exec (run env f) k (gw t (i + 1) S) := by
            intro f k
            cases v with
            | none => rfl
            | some y => rfl
          rw [hcancel] at h
          cases hce : k'.child.isEmpty with
          | true =>
            simp only [hce, if_true, exec, Store.op] at h
            cases h; omega
          | false =>
            simp only [hce, Bool.false_eq_true, if_false] at h
            rw [exec_prepare] at h
            simp only [exec] at h
            exact ih (v := some x) (p := i + 1) (S := S) (by omega) hlt (by omega) hlt h

theorem leaf_halts {P} (hl : P.isLeaf = true) (i : Nat) (S : List Nat) :
    ∃ n r st' i', run env n P .nil .nil (fresh P) (gw t i S) = .ok ((r, st'), gw t i' S) ∧
      (∀ c, i ≤ t.length → Ended t c i P r i' []) := by
  have same : ∀ {P r}, (r = .SUCCESS → P = .fail ∨ ∀ c, P.eats c = false) → (P = .fail → r = .FAILURE) →
      ∀ c, i ≤ t.length → Ended t c i P r i [] := by
    intro P r h h2 c hi
    refine ⟨Nat.le_refl _, hi, .nil, fun hr he => ?_⟩
    rcases h hr with h | h
    · rw [h2 h] at hr; cases hr
    · rw [h c] at he; cases he
  cases P with
  | char s =>
    cases hc : t[i]? with
    | none =>
      refine ⟨1, .FAILURE, .unit, i, ?_, same (by simp) (by simp)⟩
      rw [run_succ_eq]
      simp only [fresh, body]
      rw [exec_guarded_end (List.getElem?_eq_none_iff.1 hc)]
      rfl
    | some ch =>
      by_cases hv : s.isValid ch = true
      · refine ⟨1, .SUCCESS, .unit, i + 1, ?_, fun c _ => ⟨by omega,
          (List.getElem?_eq_some_iff.1 hc).1, .nil, fun _ _ => by omega⟩⟩
        rw [run_succ_eq]
        simp only [fresh, body]
        rw [exec_guarded_char hc]
        simp only [hv, if_true, exec_mem, Store.op]
        rw [exec_advance hc]
        rfl
      · have hv : s.isValid ch = false := by simpa using hv
        refine ⟨1, .FAILURE, .unit, i, ?_, same (by simp) (by simp)⟩
        rw [run_succ_eq]
        simp only [fresh, body]
        rw [exec_guarded_char hc]
        simp [hv, exec]
  | charSymbol m =>
    cases hc : t[i]? with
    | none =>
      refine ⟨1, .FAILURE, .unit, i, ?_, same (by simp) (by simp)⟩
      rw [run_succ_eq]
      simp only [fresh, body]
      rw [exec_guarded_end (List.getElem?_eq_none_iff.1 hc)]
      rfl
    | some ch =>
      cases hf : m.find? (fun e => e.1 == ch) with
      | none =>
        refine ⟨1, .FAILURE, .unit, i, ?_, same (by simp) (by simp)⟩
        rw [run_succ_eq]
        simp only [fresh, body]
        rw [exec_guarded_char hc]
        simp only [hf, exec]
      | some e =>
        refine ⟨1, .SUCCESS, .unit, i, ?_, same (fun _ => .inr fun c => rfl) (by simp)⟩
        rw [run_succ_eq]
        simp only [fresh, body]
        rw [exec_guarded_char hc]
        simp only [hf, exec, Store.op]
  | strLit s =>
    obtain ⟨f, st', i', hf, hi⟩ := run_strLit (env := env) (t := t) (S := S) (μ := Unit) s .nil .nil
      s i 0 () rfl
    refine ⟨f, _, st', i', hf, fun c hle => ?_⟩
    have hb := strLit_low hle hf
    refine ⟨hb.1, hb.2, .nil, fun hr he => ?_⟩
    split at hr
    · rename_i hp
      rw [hi hp]
      cases s with
      | nil => cases he
      | cons a s => simp
    · cases hr
  | symbol root =>
    obtain ⟨f, st', fi, hf⟩ := run_symbol (env := env) (t := t) (S := S) (μ := Unit) root .nil .nil
      () (t.drop i) i root none 0 rfl
    cases hl : longest root (t.drop i) with
    | none =>
      rw [hl] at hf
      refine ⟨f, .FAILURE, st', fi, hf, fun c hle => ?_⟩
      have hb := symbol_low (lo := i) (v := none) (p := i) (Nat.le_refl _) hle (Nat.le_refl _) hle hf
      exact ⟨hb.1, hb.2, .nil, fun h => by cases h⟩
    | some x =>
      obtain ⟨k, v⟩ := x
      rw [hl] at hf
      refine ⟨f, .SUCCESS, st', i + k, hf, fun c hle => ?_⟩
      have hb := symbol_low (lo := i) (v := none) (p := i) (S' := S)
        (Nat.le_refl _) hle (Nat.le_refl _) hle hf
      refine ⟨hb.1, hb.2, .nil, fun _ _ => ?_⟩
      have : k ≠ 0 := by
        rintro rfl
        cases hd : t.drop i with
        | nil => rw [hd] at hl; cases hl
        | cons ch l =>
          rw [hd, longest] at hl
          cases hfi : root.child.find ch with
          | none => simp [hfi] at hl
          | some n =>
            simp only [hfi] at hl
            split at hl
            · cases hl
            · cases hv : n.val <;> simp [hv] at hl
      omega
  | int b mn mx =>
    obtain ⟨f, st', hf⟩ := run_int (env := env) (t := t) (S := S) (i := i) (μ := Unit) b mn mx
      .nil .nil ()
    rw [outOf_unit] at hf
    refine ⟨f, _, st', _, hf, fun c hle => ?_⟩
    have h1 := digitRun_le b mx (t.drop (i + signLen (t.drop i)))
    have h2 : signLen (t.drop i) ≤ (t.drop i).length := by
      cases t.drop i <;> simp [signLen]; split <;> omega
    simp only [List.length_drop] at h1 h2
    refine ⟨by omega, by omega, .nil, fun hr he => ?_⟩
    have he : 0 < mn := by simpa [Prog.eats] using he
    unfold digitRes enough at hr
    split at hr
    · omega
    · split at hr
      · omega
      · cases hr
  | uint b mn mx =>
    obtain ⟨f, st', hf⟩ := run_uint (env := env) (t := t) (S := S) (μ := Unit) b mn mx
      .nil .nil (t.drop i) i 0 () rfl (by omega)
    rw [Nat.sub_zero, outOf_unit] at hf
    refine ⟨f, _, st', _, hf, fun c hle => ?_⟩
    have h1 := digitRun_le b mx (t.drop i)
    simp only [List.length_drop] at h1
    refine ⟨by omega, by omega, .nil, fun hr he => ?_⟩
    have he : 0 < mn := by simpa [Prog.eats] using he
    unfold digitRes enough at hr
    split at hr
    · omega
    · split at hr
      · omega
      · cases hr
  | eoi =>
    cases hc : t[i]? with
    | none =>
      refine ⟨1, .SUCCESS, .unit, i, ?_, same (fun _ => .inr fun c => rfl) (by simp)⟩
      rw [run_succ_eq]
      simp only [fresh, body]
      rw [exec_guarded_end (List.getElem?_eq_none_iff.1 hc)]
      rfl
    | some ch =>
      refine ⟨1, .FAILURE, .unit, i, ?_, same (by simp) (by simp)⟩
      rw [run_succ_eq]
      simp only [fresh, body]
      rw [exec_guarded_char hc]
      rfl
  | pass => exact ⟨1, .SUCCESS, .unit, i, rfl, same (fun _ => .inr fun c => rfl) (by simp)⟩
  | fail => exact ⟨1, .FAILURE, .unit, i, rfl, same (by simp) (by simp)⟩
  | _ => cases hl

end
end Abu
