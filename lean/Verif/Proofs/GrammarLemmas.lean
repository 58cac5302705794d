import Verif.Proofs.Bridge
/-
Grammar outcomes of composite patterns in terms of texts.
-/
namespace Abu

section
variable {env : Env} {t : List Ch}

/-! ### Alternatives -/

theorem PegRest.alt_first {pre post : List Pat} {q : Pat} {rest}
    (hpre : ∀ a ∈ pre, PegRest env a t none) (hq : PegRest env q t (some rest)) :
    PegRest env (.alt (pre ++ q :: post)) t (some rest) := by
  obtain ⟨j, hq, rfl⟩ := hq
  refine ⟨j, ?_, rfl⟩
  induction pre with
  | nil => exact .alt hq
  | cons a pre ih =>
    exact .altNo (hpre a (by simp)) (ih fun b hb => hpre b (by simp [hb]))

theorem PegRest.alt_none {ps : List Pat} (h : ∀ a ∈ ps, PegRest env a t none) :
    PegRest env (.alt ps) t none := by
  show Peg env t _ 0 none
  induction ps with
  | nil => exact .altNil
  | cons a ps ih => exact .altNo (h a (by simp)) (ih fun b hb => h b (by simp [hb]))

theorem PegRest.alt_some_inv {ps : List Pat} {rest} (h : PegRest env (.alt ps) t (some rest)) :
    ∃ pre q post, ps = pre ++ q :: post ∧ (∀ a ∈ pre, PegRest env a t none) ∧
      PegRest env q t (some rest) := by
  obtain ⟨j, h, rfl⟩ := h
  induction ps with
  | nil => cases h
  | cons a ps ih =>
    cases h with
    | alt h => exact ⟨[], a, ps, rfl, by simp, _, h, rfl⟩
    | altNo h1 h2 =>
      obtain ⟨pre, q, post, rfl, h3, h4⟩ := ih h2
      refine ⟨a :: pre, q, post, rfl, ?_, h4⟩
      intro b hb
      rcases List.mem_cons.1 hb with rfl | hb
      · exact h1
      · exact h3 b hb

theorem PegRest.alt_none_inv {ps : List Pat} (h : PegRest env (.alt ps) t none) :
    ∀ a ∈ ps, PegRest env a t none := by
  change Peg env t _ 0 none at h
  induction ps with
  | nil => simp
  | cons a ps ih =>
    cases h with
    | altNo h1 h2 =>
      intro b hb
      rcases List.mem_cons.1 hb with rfl | hb
      · exact h1
      · exact ih h2 b hb

/-! ### Sequences -/

theorem peg_seq {ps : List Pat} {i u}
    (h : InTurn (fun a u v => PegRest env a u (some v)) ps (t.drop i) u) :
    ∃ j, Peg env t (.seq ps) i (some j) ∧ u = t.drop j := by
  induction ps generalizing i with
  | nil => cases h; exact ⟨i, .seqNil, rfl⟩
  | cons a ps ih =>
    cases h with
    | cons h1 h2 =>
      obtain ⟨j, h3, rfl⟩ := peg_of_rest h1
      obtain ⟨k, h4, rfl⟩ := ih h2
      exact ⟨k, .seq h3 h4, rfl⟩

theorem PegRest.seq_some {ps : List Pat} {u}
    (h : InTurn (fun a u v => PegRest env a u (some v)) ps t u) :
    PegRest env (.seq ps) t (some u) :=
  peg_seq (i := 0) h

theorem PegRest.seq_none {pre post : List Pat} {q : Pat} {u}
    (h : InTurn (fun a u v => PegRest env a u (some v)) pre t u) (hq : PegRest env q u none) :
    PegRest env (.seq (pre ++ q :: post)) t none := by
  show Peg env t _ 0 none
  have : ∀ i, InTurn (fun a u v => PegRest env a u (some v)) pre (t.drop i) u →
      Peg env t (.seq (pre ++ q :: post)) i none := by
    clear h
    induction pre with
    | nil => intro i h; cases h; exact .seqNo (peg_of_none hq)
    | cons a pre ih =>
      intro i h
      cases h with
      | cons h1 h2 =>
        obtain ⟨j, h3, rfl⟩ := peg_of_rest h1
        exact .seq h3 (ih j h2)
  exact this 0 h

/-! ### Repetition -/

theorem peg_rep {p : Pat} : ∀ (n : Nat) {mn mx i u},
    Times (fun u v => PegRest env p u (some v)) n (t.drop i) u → mn ≤ n → (mx ≠ 0 → n ≤ mx) →
    (mx ≠ 0 ∧ 0 < n ∧ n = mx ∨ PegRest env p u none) →
    ∃ j, Peg env t (.rep mn mx p) i (some j) ∧ u = t.drop j
  | 0, mn, mx, i, u, h, h1, h2, h3 => by
    cases h
    obtain rfl : mn = 0 := by omega
    rcases h3 with ⟨_, h, _⟩ | h3
    · omega
    · exact ⟨i, .repStop (peg_of_none h3), rfl⟩
  | n + 1, mn, mx, i, u, h, h1, h2, h3 => by
    cases h with
    | succ ha hb =>
      obtain ⟨j, hj, rfl⟩ := peg_of_rest ha
      by_cases hm : mx = 1
      · subst hm
        have : n = 0 := by have := h2 (by omega); omega
        subst this
        cases hb
        exact ⟨j, .repLast hj, rfl⟩
      · obtain ⟨k, hk, rfl⟩ := peg_rep n (mn := mn - 1) (mx := mx - 1) hb (by omega)
          (by intro h; have := h2 (by omega); omega)
          (by rcases h3 with ⟨_, _, h⟩ | h3
              · exact .inl ⟨by omega, by omega, by omega⟩
              · exact .inr h3)
        exact ⟨k, .repMore hm hj hk, rfl⟩

theorem peg_rep_few {p : Pat} : ∀ (n : Nat) {mn mx i u},
    Times (fun u v => PegRest env p u (some v)) n (t.drop i) u → n < mn → (mx = 0 ∨ mn ≤ mx) →
    PegRest env p u none → Peg env t (.rep mn mx p) i none
  | 0, mn, mx, i, u, h, h1, h2, h3 => by
    cases h
    exact .repFew (by omega) (peg_of_none h3)
  | n + 1, mn, mx, i, u, h, h1, h2, h3 => by
    cases h with
    | succ ha hb =>
      obtain ⟨j, hj, rfl⟩ := peg_of_rest ha
      exact .repMore (by omega) hj (peg_rep_few n hb (by omega) (by omega) h3)

theorem peg_rep_inv {q : Pat} {i o} (h : Peg env t q i o) : ∀ {mn mx p}, q = .rep mn mx p →
    (mx = 0 ∨ mn ≤ mx) →
    ∃ n u, Times (fun u v => PegRest env p u (some v)) n (t.drop i) u ∧
      (mx ≠ 0 → n ≤ mx) ∧ (mx ≠ 0 ∧ n = mx ∨ PegRest env p u none) ∧
      match (generalizing := false) o with
      | some j => u = t.drop j ∧ mn ≤ n
      | none => n < mn ∧ PegRest env p u none := by
  induction h with
  | repStop h =>
    rintro mn mx p ⟨⟩ hm
    exact ⟨0, _, .zero, by omega, .inr (none_of_peg h), rfl, by omega⟩
  | repFew h1 h =>
    rintro mn mx p ⟨⟩ hm
    exact ⟨0, _, .zero, by omega, .inr (none_of_peg h), h1, none_of_peg h⟩
  | repLast h =>
    rintro mn mx p ⟨⟩ hm
    exact ⟨1, _, .succ (rest_of_peg h) .zero, by omega, .inl ⟨by omega, rfl⟩, rfl, by omega⟩
  | @repMore mn mx p i j o hne h _ _ ih =>
    rintro _ _ _ ⟨⟩ hm
    obtain ⟨n, u, h1, h2, h3, h4⟩ := ih rfl (by omega)
    refine ⟨n + 1, u, .succ (rest_of_peg h) h1, ?_, ?_, ?_⟩
    · intro h; by_cases h' : mx - 1 = 0
      · omega
      · have := h2 h'; omega
    · rcases h3 with ⟨h3, h5⟩ | h3
      · exact .inl (by omega)
      · exact .inr h3
    · cases o with
      | none => exact ⟨by have := h4.1; omega, h4.2⟩
      | some j => exact ⟨h4.1, by have := h4.2; omega⟩
  | _ => intros; simp_all

theorem PegRest.rep {p : Pat} {n mn mx u}
    (h : Times (fun u v => PegRest env p u (some v)) n t u) (h1 : mn ≤ n) (h2 : mx ≠ 0 → n ≤ mx)
    (h3 : mx ≠ 0 ∧ n = mx ∨ PegRest env p u none) :
    PegRest env (.rep mn mx p) t (some u) :=
  peg_rep n (i := 0) h h1 h2 (by
    rcases h3 with ⟨h3, h4⟩ | h3
    · exact .inl ⟨h3, by omega, h4⟩
    · exact .inr h3)

theorem PegRest.rep_few {p : Pat} {n mn mx u}
    (h : Times (fun u v => PegRest env p u (some v)) n t u) (h1 : n < mn) (h2 : mx = 0 ∨ mn ≤ mx)
    (h3 : PegRest env p u none) : PegRest env (.rep mn mx p) t none :=
  peg_rep_few n (i := 0) h h1 h2 h3

theorem PegRest.rep_inv {p : Pat} {mn mx u} (hm : mx = 0 ∨ mn ≤ mx)
    (h : PegRest env (.rep mn mx p) t (some u)) :
    ∃ n, Times (fun u v => PegRest env p u (some v)) n t u ∧ mn ≤ n ∧ (mx ≠ 0 → n ≤ mx) ∧
      (mx ≠ 0 ∧ n = mx ∨ PegRest env p u none) := by
  obtain ⟨j, h, rfl⟩ := h
  obtain ⟨n, u, h1, h2, h3, rfl, h5⟩ := peg_rep_inv h rfl hm
  exact ⟨n, h1, h5, h2, h3⟩

theorem PegRest.rep_none_inv {p : Pat} {mn mx} (hm : mx = 0 ∨ mn ≤ mx)
    (h : PegRest env (.rep mn mx p) t none) :
    ∃ n u, Times (fun u v => PegRest env p u (some v)) n t u ∧ n < mn ∧ PegRest env p u none := by
  obtain ⟨n, u, h1, h2, h3, h4, h5⟩ := peg_rep_inv h rfl hm
  exact ⟨n, u, h1, h4, h5⟩

/-! ### Lists -/

theorem PegRest.list_nil {op sep : Pat} (h : PegRest env op t none) :
    PegRest env (.list op sep) t (some t) := ⟨0, .listNil h, rfl⟩

/-- A separator and an item. -/
def SepItem (R : Pat → List Ch → Option (List Ch) → Prop) (op sep : Pat) (u v : List Ch) : Prop :=
  ∃ w, R sep u (some w) ∧ R op w (some v)

theorem pegRest_pair {op sep : Pat} {u v} :
    PegRest env (.seq [sep, op]) u (some v) ↔ SepItem (PegRest env) op sep u v := by
  constructor
  · rintro ⟨j, h, rfl⟩
    cases h with
    | seq h1 h2 =>
      cases h2 with
      | seq h2 h3 =>
        cases h3
        exact ⟨_, rest_of_peg (i := 0) h1, rest_of_peg h2⟩
  · rintro ⟨w, h1, h2⟩
    exact PegRest.seq_some (.cons h1 (.cons h2 .nil))

theorem pegRest_pair_none {op sep : Pat} {u} :
    PegRest env (.seq [sep, op]) u none ↔
      (PegRest env sep u none ∨ ∃ w, PegRest env sep u (some w) ∧ PegRest env op w none) := by
  constructor
  · intro h
    cases (show Peg env u _ 0 none from h) with
    | seqNo h => exact .inl h
    | seq h1 h2 =>
      cases h2 with
      | seqNo h2 => exact .inr ⟨_, rest_of_peg (i := 0) h1, none_of_peg h2⟩
      | seq _ h3 => cases h3
  · rintro (h | ⟨w, h1, h2⟩)
    · exact PegRest.seq_none (pre := []) .nil h
    · exact PegRest.seq_none (pre := [sep]) (.cons h1 .nil) h2

theorem Times.imp {R R' : List Ch → List Ch → Prop} (h : ∀ u v, R u v → R' u v) {n t u}
    (ht : Times R n t u) : Times R' n t u := by
  induction ht with
  | zero => exact .zero
  | succ h1 _ ih => exact .succ (h _ _ h1) ih

theorem InTurn.imp {α : Type} {R R' : α → List Ch → List Ch → Prop} {as t u}
    (ht : InTurn R as t u) (h : ∀ a ∈ as, ∀ u v, R a u v → R' a u v) : InTurn R' as t u := by
  induction ht with
  | nil => exact .nil
  | cons h1 _ ih => exact .cons (h _ (by simp) _ _ h1) (ih fun a ha => h a (by simp [ha]))

theorem PegRest.list_some {op sep : Pat} {n t1 u} (h0 : PegRest env op t (some t1))
    (h1 : Times (SepItem (PegRest env) op sep) n t1 u)
    (h2 : PegRest env sep u none ∨ ∃ w, PegRest env sep u (some w) ∧ PegRest env op w none) :
    PegRest env (.list op sep) t (some u) := by
  obtain ⟨j, h0, rfl⟩ := h0
  obtain ⟨k, hk, rfl⟩ := peg_rep (p := .seq [sep, op]) n (mn := 0) (mx := 0)
    (h1.imp fun _ _ => pegRest_pair.2) (by omega) (by omega) (.inr (pegRest_pair_none.2 h2))
  exact ⟨k, .list h0 hk, rfl⟩

theorem PegRest.list_inv {op sep : Pat} {o} (h : PegRest env (.list op sep) t o) :
    (o = some t ∧ PegRest env op t none) ∨
    ∃ t1 n u, o = some u ∧ PegRest env op t (some t1) ∧
      Times (SepItem (PegRest env) op sep) n t1 u ∧
      (PegRest env sep u none ∨ ∃ w, PegRest env sep u (some w) ∧ PegRest env op w none) := by
  have key : ∀ o', Peg env t (.list op sep) 0 o' → (o' = some 0 ∧ PegRest env op t none) ∨
      ∃ t1 n j, o' = some j ∧ PegRest env op t (some t1) ∧
      Times (SepItem (PegRest env) op sep) n t1 (t.drop j) ∧
      (PegRest env sep (t.drop j) none ∨
        ∃ w, PegRest env sep (t.drop j) (some w) ∧ PegRest env op w none) := by
    intro o' h
    cases h with
    | listNil h => exact .inl ⟨rfl, h⟩
    | list h1 h2 =>
      obtain ⟨n, u, h3, _, h4, h5⟩ := peg_rep_inv h2 rfl (.inl rfl)
      cases o' with
      | none => obtain ⟨h5, _⟩ := h5; omega
      | some j =>
        obtain ⟨rfl, _⟩ := h5
        refine .inr ⟨_, n, j, rfl, rest_of_peg (i := 0) h1, h3.imp fun _ _ => pegRest_pair.1, ?_⟩
        rcases h4 with ⟨h, _⟩ | h4
        · exact absurd rfl h
        · exact pegRest_pair_none.1 h4
  cases o with
  | none =>
    rcases key none h with ⟨h, _⟩ | ⟨_, _, _, h, _⟩ <;> cases h
  | some rest =>
    obtain ⟨j, h, rfl⟩ := h
    rcases key _ h with ⟨h, h'⟩ | ⟨t1, n, j, ⟨⟩, h1, h2, h3⟩
    · cases h; exact .inl ⟨rfl, h'⟩
    · exact .inr ⟨t1, n, _, rfl, h1, h2, h3⟩

/-! ### Option, lookahead, exception -/

theorem PegRest.opt_some {p : Pat} {u} (h : PegRest env p t (some u)) :
    PegRest env (.opt p) t (some u) := by
  obtain ⟨j, h, rfl⟩ := h; exact ⟨j, .opt h, rfl⟩

theorem PegRest.opt_none {p : Pat} (h : PegRest env p t none) :
    PegRest env (.opt p) t (some t) := ⟨0, .optNo h, rfl⟩

theorem PegRest.opt_inv {p : Pat} {o} (h : PegRest env (.opt p) t o) :
    (∃ u, o = some u ∧ PegRest env p t (some u)) ∨ o = some t ∧ PegRest env p t none := by
  cases o with
  | none => cases (show Peg env t _ 0 none from h)
  | some u =>
    obtain ⟨j, h, rfl⟩ := h
    cases h with
    | opt h => exact .inl ⟨_, rfl, _, h, rfl⟩
    | optNo h => exact .inr ⟨rfl, h⟩

theorem PegRest.not_none {p : Pat} {u} (h : PegRest env p t (some u)) :
    PegRest env (.not p) t none := by
  obtain ⟨j, h, rfl⟩ := h; exact Peg.notNo h

theorem PegRest.not_some {p : Pat} (h : PegRest env p t none) :
    PegRest env (.not p) t (some t) := ⟨0, .not h, rfl⟩

theorem PegRest.not_inv {p : Pat} {o} (h : PegRest env (.not p) t o) :
    (o = none ∧ ∃ u, PegRest env p t (some u)) ∨ o = some t ∧ PegRest env p t none := by
  cases o with
  | none =>
    cases (show Peg env t _ 0 none from h) with
    | notNo h => exact .inl ⟨rfl, _, _, h, rfl⟩
  | some u =>
    obtain ⟨j, h, rfl⟩ := h
    cases h with
    | not h => exact .inr ⟨rfl, h⟩

theorem PegRest.except_no {op neg : Pat} {u} (h : PegRest env neg t (some u)) :
    PegRest env (.except op neg) t none := by
  obtain ⟨j, h, rfl⟩ := h; exact Peg.exceptNo h

theorem PegRest.except {op neg : Pat} {o} (h : PegRest env neg t none) (h1 : PegRest env op t o) :
    PegRest env (.except op neg) t o := by
  cases o with
  | none => exact Peg.except h h1
  | some u => obtain ⟨j, h1, rfl⟩ := h1; exact ⟨j, .except h h1, rfl⟩

theorem PegRest.except_inv {op neg : Pat} {o} (h : PegRest env (.except op neg) t o) :
    (o = none ∧ ∃ u, PegRest env neg t (some u)) ∨ PegRest env neg t none ∧ PegRest env op t o := by
  cases o with
  | none =>
    cases (show Peg env t _ 0 none from h) with
    | exceptNo h => exact .inl ⟨rfl, _, _, h, rfl⟩
    | except h h1 => exact .inr ⟨h, h1⟩
  | some u =>
    obtain ⟨j, h, rfl⟩ := h
    cases h with
    | except h h1 => exact .inr ⟨h, j, h1, rfl⟩

end
end Abu
