import Verif.Proofs.Low
/-
One iteration of a parser constructed at or after a given place.
-/
namespace Abu

/-- A newly constructed parser, with the rollback points it counts as its own. -/
structure Start (t : List Ch) (lo : Nat) (P : Prog) (i : Nat) (own : List Nat) : Prop where
  low : lo ≤ i
  high : i ≤ t.length
  len : own.length = marks P
  own : Within t lo own

theorem Start.new {t lo P i} (h : lo ≤ i) (h' : i ≤ t.length) :
    Start t lo P i (List.replicate (marks P) i) :=
  ⟨h, h', List.length_replicate, .replicate h h'⟩

theorem Start.mono {t lo b P i own} (h : Start t b P i own) (hb : lo ≤ b) : Start t lo P i own :=
  ⟨Nat.le_trans hb h.low, h.high, h.len, h.own.mono hb⟩

/-- States in which the iterations of a parser constructed at or after `lo` start. -/
inductive Sit (t : List Ch) (c : Nat → Bool) (lo : Nat) :
    Prog → PState → Nat → List Nat → Prop
  | seq {slots ps k p b i own} : ps[k]? = some p → lo ≤ b →
      (∀ j q, j < k → ps[j]? = some q → q.eats c = true → lo < b) → Start t b p i own →
      Sit t c lo (.seq slots ps) (.seq k (fresh p)) i own
  | alt {ps k p b i own} : ps[k]? = some p → lo ≤ b → Start t b p i own →
      Sit t c lo (.alt ps) (.alt k (fresh p)) i own
  | rep {mn mx p n b i own} : lo ≤ b → (0 < n → p.eats c = true → lo < b) → Start t b p i own →
      Sit t c lo (.rep mn mx p) (.rep n (fresh p)) i own
  | opt {p i own m} : Start t lo p i own → lo ≤ m → m ≤ t.length →
      Sit t c lo (.opt p) (.wrap (fresh p)) i (own ++ [m])
  | not {p i own m} : Start t lo p i own → lo ≤ m → m ≤ t.length →
      Sit t c lo (.not p) (.wrap (fresh p)) i (own ++ [m])
  | clean {p i own m} : Start t lo p i own → lo ≤ m → m ≤ t.length →
      Sit t c lo (.clean p) (.wrap (fresh p)) i (own ++ [m])
  | discard {p i own} : Start t lo p i own → Sit t c lo (.discard p) (.wrap (fresh p)) i own
  | lexeme {p i own} : Start t lo p i own → Sit t c lo (.lexeme p) (.wrap (fresh p)) i own
  | bindDst {p i own} : Start t lo p i own → Sit t c lo (.bindDst p) (.wrap (fresh p)) i own
  | withSkipper {p i own} : Start t lo p i own →
      Sit t c lo (.withSkipper p) (.wrap (fresh p)) i own
  | construct {tys p i own} : Start t lo p i own →
      Sit t c lo (.construct tys p) (.buffered .nil (fresh p)) i own
  | action {a p i own} : Start t lo p i own →
      Sit t c lo (.action a p) (.buffered .nil (fresh p)) i own
  | atomic {p i own} : Start t lo p i own →
      Sit t c lo (.atomic p) (.buffered .nil (fresh p)) i own
  | exceptNeg {op neg i own} : Start t lo neg i own →
      Sit t c lo (.except op neg) (.except false (fresh neg)) i own
  | exceptOp {op neg b i own} : lo ≤ b → Start t b op i own →
      Sit t c lo (.except op neg) (.except true (fresh op)) i own
  | listOp {op sep b i own m} : lo ≤ b → Start t b op i own → lo ≤ m → m ≤ t.length →
      Sit t c lo (.list op sep) (.list false (fresh op)) i (own ++ [m])
  | listSep {op sep b i own m} : lo ≤ b → Start t b sep i own → lo ≤ m → m ≤ t.length →
      Sit t c lo (.list op sep) (.list true (fresh sep)) i (own ++ [m])
  | skipping {s p b i own own2} : lo ≤ b → Start t b s i own → own2.length = marks p →
      Within t lo own2 → Sit t c lo (.skip s p) (.skip false (fresh s) (fresh p)) i (own ++ own2)
  | skipped {s p cs i own} : Start t lo p i own →
      Sit t c lo (.skip s p) (.skip true cs (fresh p)) i own

theorem split_own {t lo} {own : List Nat} {n k : Nat} (h : own.length = n + k)
    (hw : Within t lo own) : ∃ a b, own = a ++ b ∧ a.length = n ∧ b.length = k ∧
      Within t lo a ∧ Within t lo b := by
  refine ⟨own.take n, own.drop n, (List.take_append_drop n own).symm, ?_, ?_, ?_, ?_⟩
  · rw [List.length_take]; omega
  · rw [List.length_drop]; omega
  · intro x hx; exact hw x (List.mem_of_mem_take hx)
  · intro x hx; exact hw x (List.mem_of_mem_drop hx)

theorem Start.split {t lo P p i own} (h : Start t lo P i own) (hm : marks P = marks p + 1) :
    ∃ own' m, own = own' ++ [m] ∧ Start t lo p i own' ∧ lo ≤ m ∧ m ≤ t.length := by
  obtain ⟨a, b, rfl, ha, hb, wa, wb⟩ := split_own (h.len.trans hm) h.own
  match b, hb, wb with
  | [m], _, wb =>
    exact ⟨a, m, rfl, ⟨h.low, h.high, ha, wa⟩, (wb m (by simp)).1, (wb m (by simp)).2⟩

theorem Start.sit {t lo P i own} {c : Nat → Bool} (h : Start t lo P i own) (hc : Comp P)
    (hl : P.isLeaf = false) (hr : ∀ id sk, P ≠ .recur id sk) : Sit t c lo P (fresh P) i own := by
  have same : ∀ p, marks P = marks p → Start t lo p i own :=
    fun p hm => ⟨h.low, h.high, h.len.trans hm, h.own⟩
  cases hc with
  | char | charSymbol | strLit | symbol | int | uint | eoi | pass | fail => cases hl
  | recur => exact absurd rfl (hr _ _)
  | @seq slots ps hne hlen _ =>
    cases ps with
    | nil => exact absurd rfl hne
    | cons p ps => exact .seq (k := 0) rfl (Nat.le_refl _) (fun j q hj => by omega) (same p rfl)
  | @alt ps hne _ =>
    cases ps with
    | nil => exact absurd rfl hne
    | cons p ps => exact .alt (k := 0) rfl (Nat.le_refl _) (same p rfl)
  | rep => exact .rep (Nat.le_refl _) (fun h => by omega) (same _ rfl)
  | opt => obtain ⟨o, m, rfl, h1, h2, h3⟩ := h.split rfl; exact .opt h1 h2 h3
  | not => obtain ⟨o, m, rfl, h1, h2, h3⟩ := h.split rfl; exact .not h1 h2 h3
  | clean => obtain ⟨o, m, rfl, h1, h2, h3⟩ := h.split rfl; exact .clean h1 h2 h3
  | discard => exact .discard (same _ rfl)
  | lexeme => exact .lexeme (same _ rfl)
  | bindDst => exact .bindDst (same _ rfl)
  | withSkipper => exact .withSkipper (same _ rfl)
  | construct => exact .construct (same _ rfl)
  | action => exact .action (same _ rfl)
  | atomic => exact .atomic (same _ rfl)
  | except => exact .exceptNeg (same _ rfl)
  | list => obtain ⟨o, m, rfl, h1, h2, h3⟩ := h.split rfl; exact .listOp (Nat.le_refl _) h1 h2 h3
  | skip =>
    obtain ⟨a, b, rfl, ha, hb, wa, wb⟩ := split_own h.len h.own
    exact .skipping (Nat.le_refl _) ⟨h.low, h.high, ha, wa⟩ hb wb

/-- What an iteration may end with. -/
def IterEnds (t : List Ch) (c : Nat → Bool) (lo : Nat) (P : Prog) (S : List Nat) :
    Option Iter → Prop
  | none => False
  | some (.ret r i' S') => ∃ L, S' = L ++ S ∧ Ended t c lo P r i' L
  | some (.cont st i' S') => ∃ own L, S' = own ++ (L ++ S) ∧ Within t lo L ∧ Sit t c lo P st i' own

theorem Within.one {t lo m} (h : lo ≤ m) (h' : m ≤ t.length) : Within t lo [m] := by
  intro x hx
  rw [List.mem_singleton] at hx
  subst hx; exact ⟨h, h'⟩

theorem Within.cons {t lo m l} (h : lo ≤ m) (h' : m ≤ t.length) (hl : Within t lo l) :
    Within t lo (m :: l) := Within.append (Within.one h h') hl

/-- The topmost rollback point, when there is one of one's own. -/
theorem pop_own {t lo} {L : List Nat} {m : Nat} {S : List Nat} (hL : Within t lo L) (h : lo ≤ m)
    (h' : m ≤ t.length) : ∃ x L', L ++ ([m] ++ S) = x :: (L' ++ S) ∧ lo ≤ x ∧ x ≤ t.length ∧
      Within t lo L' := by
  cases L with
  | nil => exact ⟨m, [], rfl, h, h', .nil⟩
  | cons x L =>
    refine ⟨x, L ++ [m], by simp, (hL x (by simp)).1, (hL x (by simp)).2, ?_⟩
    exact Within.append (fun y hy => hL y (List.mem_cons_of_mem _ hy)) (.one h h')

section
variable {t : List Ch} {c : Nat → Bool} {lo : Nat}

theorem IterEnds.same {P p r i L S} {b : Nat} (h : Ended t c b p r i L) (hb : lo ≤ b)
    (he : r = .SUCCESS → P.eats c = true → lo < i) :
    IterEnds t c lo P S (some (.ret r i (L ++ S))) :=
  ⟨L, rfl, Nat.le_trans hb h.low, h.high, h.left.mono hb, he⟩

theorem IterEnds.back {P p r r' i L m S} (h : Ended t c lo p r i L) (hm : lo ≤ m)
    (hm' : m ≤ t.length) (he : P.eats c = true → r' ≠ .SUCCESS) :
    IterEnds t c lo P S (back r' (L ++ ([m] ++ S))) := by
  obtain ⟨x, L', e, h1, h2, h3⟩ := pop_own (S := S) h.left hm hm'
  rw [e]
  exact ⟨L', rfl, h1, h2, h3, fun hr hp => absurd hr (he hp)⟩

theorem sit_step {P st i own cp cs} (h : Sit t c lo P st i own) (hP : Comp P)
    (hc : childOf P st = some (cp, cs)) :
    cs = fresh cp ∧ ∃ b own' rest, own = own' ++ rest ∧ lo ≤ b ∧ Start t b cp i own' ∧
      ∀ r cs' i1 L S, Ended t c b cp r i1 L →
        IterEnds t c lo P S (after P st r cs' i1 (L ++ (rest ++ S))) := by
  have fwd : ∀ {P p st}, (∀ r cs' i S, after P st r cs' i S = some (.ret r i S)) →
      (P.eats c = true → p.eats c = true) →
      ∀ r cs' i1 L S, Ended t c lo p r i1 L →
        IterEnds t c lo P S (after P st r cs' i1 (L ++ ([] ++ S))) := by
    intro P p st ha he r cs' i1 L S h
    rw [ha, List.nil_append]
    exact .same h (Nat.le_refl _) fun hr hp => h.ate hr (he hp)
  cases h with
  | @seq slots ps k p b i own hp hb hk hs =>
    simp only [childOf, hp, Option.map_some, Option.some.injEq, Prod.mk.injEq] at hc
    obtain ⟨rfl, rfl⟩ := hc
    refine ⟨rfl, b, own, [], by simp, hb, hs, fun r cs' i1 L S he => ?_⟩
    rw [List.nil_append]
    have key : ∀ j q, j < k + 1 → ps[j]? = some q → q.eats c = true → r = .SUCCESS → lo < i1 := by
      intro j q hj hq hqe hr
      rcases Nat.lt_or_ge j k with hjk | hjk
      · exact Nat.lt_of_lt_of_le (hk j q hjk hq hqe) he.low
      · have : j = k := by omega
        subst this
        rw [hp] at hq; cases hq
        exact Nat.lt_of_le_of_lt hb (he.ate hr hqe)
    cases r with
    | SUCCESS =>
      simp only [after]
      split
      · rename_i p' s' hp' hs'
        exact ⟨_, L, rfl, he.left.mono hb, .seq hp' (Nat.le_trans hb he.low)
          (fun j q h1 h2 h3 => key j q h1 h2 h3 rfl) (.new (Nat.le_refl _) he.high)⟩
      · rename_i hno
        refine .same he hb fun hr hpe => ?_
        rw [Prog.eats, Prog.someEats_iff] at hpe
        obtain ⟨j, q, hj, hqe⟩ := hpe
        refine key j q ?_ hj hqe hr
        cases hP with
        | seq _ hl _ =>
          have hj1 := (List.getElem?_eq_some_iff.1 hj).1
          by_cases hk1 : k + 1 < ps.length
          · exact absurd (List.getElem?_eq_getElem (by omega : k + 1 < slots.length))
              (hno _ _ (List.getElem?_eq_getElem hk1))
          · omega
    | FAILURE => exact .same he hb (fun h => by cases h)
    | PARTIAL => exact .same he hb (fun h => by cases h)
  | @alt ps k p b i own hp hb hs =>
    simp only [childOf, hp, Option.map_some, Option.some.injEq, Prod.mk.injEq] at hc
    obtain ⟨rfl, rfl⟩ := hc
    refine ⟨rfl, b, own, [], by simp, hb, hs, fun r cs' i1 L S he => ?_⟩
    rw [List.nil_append]
    cases r with
    | SUCCESS =>
      refine .same he hb fun hr hpe => ?_
      rw [Prog.eats] at hpe
      exact Nat.lt_of_le_of_lt hb (he.ate hr (Prog.allEat_get hpe hp))
    | FAILURE =>
      simp only [after]
      split
      · rename_i p' hp'
        exact ⟨_, L, rfl, he.left.mono hb, .alt hp' (Nat.le_trans hb he.low)
          (.new (Nat.le_refl _) he.high)⟩
      · exact .same he hb (fun h => by cases h)
    | PARTIAL => exact .same he hb (fun h => by cases h)
  | @rep mn mx p n b i own hb hn hs =>
    cases hc
    refine ⟨rfl, b, own, [], by simp, hb, hs, fun r cs' i1 L S he => ?_⟩
    rw [List.nil_append]
    cases r with
    | SUCCESS =>
      simp only [after]
      split
      · refine .same he hb fun hr hpe => ?_
        simp only [Prog.eats, Bool.and_eq_true] at hpe
        exact Nat.lt_of_le_of_lt hb (he.ate hr hpe.2)
      · exact ⟨_, L, rfl, he.left.mono hb, .rep (Nat.le_trans hb he.low)
          (fun _ hpe => Nat.lt_of_le_of_lt hb (he.ate rfl hpe)) (.new (Nat.le_refl _) he.high)⟩
    | FAILURE =>
      refine ⟨L, rfl, Nat.le_trans hb he.low, he.high, he.left.mono hb, fun hr hpe => ?_⟩
      simp only [Prog.eats, Bool.and_eq_true, decide_eq_true_eq] at hpe
      have : mn ≤ n := by
        unfold enough at hr; split at hr
        · assumption
        · cases hr
      exact Nat.lt_of_lt_of_le (hn (by omega) hpe.2) he.low
    | PARTIAL => exact .same he hb (fun h => by cases h)
  | @opt p i own m hs hm hm' =>
    cases hc
    refine ⟨rfl, lo, own, [m], rfl, Nat.le_refl _, hs, fun r cs' i1 L S he => ?_⟩
    cases r with
    | FAILURE => exact .back he hm hm' (fun h => by cases h)
    | _ =>
      refine ⟨L ++ [m], by simp, he.low, he.high, he.left.append (.one hm hm'), fun _ h => ?_⟩
      cases h
  | @not p i own m hs hm hm' =>
    cases hc
    refine ⟨rfl, lo, own, [m], rfl, Nat.le_refl _, hs, fun r cs' i1 L S he => ?_⟩
    cases r with
    | PARTIAL =>
      refine ⟨L ++ [m], by simp, he.low, he.high, he.left.append (.one hm hm'), fun _ h => ?_⟩
      cases h
    | _ => exact .back he hm hm' (fun h => by cases h)
  | @clean p i own m hs hm hm' =>
    cases hc
    refine ⟨rfl, lo, own, [m], rfl, Nat.le_refl _, hs, fun r cs' i1 L S he => ?_⟩
    cases r with
    | SUCCESS =>
      obtain ⟨x, L', e, h1, h2, h3⟩ := pop_own (S := S) he.left hm hm'
      simp only [after, e]
      exact ⟨L', rfl, he.low, he.high, h3, fun hr hp => he.ate hr hp⟩
    | FAILURE => exact .back he hm hm' (fun _ h => by cases h)
    | PARTIAL =>
      exact ⟨L ++ [m], by simp, he.low, he.high, he.left.append (.one hm hm'),
        fun h => by cases h⟩
  | discard hs =>
    cases hc; exact ⟨rfl, lo, _, [], by simp, Nat.le_refl _, hs, fwd (fun r _ _ _ => by cases r <;> rfl) id⟩
  | lexeme hs =>
    cases hc; exact ⟨rfl, lo, _, [], by simp, Nat.le_refl _, hs, fwd (fun r _ _ _ => by cases r <;> rfl) id⟩
  | bindDst hs =>
    cases hc; exact ⟨rfl, lo, _, [], by simp, Nat.le_refl _, hs, fwd (fun r _ _ _ => by cases r <;> rfl) id⟩
  | withSkipper hs =>
    cases hc; exact ⟨rfl, lo, _, [], by simp, Nat.le_refl _, hs, fwd (fun r _ _ _ => by cases r <;> rfl) id⟩
  | construct hs =>
    cases hc; exact ⟨rfl, lo, _, [], by simp, Nat.le_refl _, hs, fwd (fun r _ _ _ => by cases r <;> rfl) id⟩
  | action hs =>
    cases hc; exact ⟨rfl, lo, _, [], by simp, Nat.le_refl _, hs, fwd (fun r _ _ _ => by cases r <;> rfl) id⟩
  | atomic hs =>
    cases hc; exact ⟨rfl, lo, _, [], by simp, Nat.le_refl _, hs, fwd (fun r _ _ _ => by cases r <;> rfl) id⟩
  | skipped hs =>
    cases hc; exact ⟨rfl, lo, _, [], by simp, Nat.le_refl _, hs, fwd (fun r _ _ _ => by cases r <;> rfl) id⟩
  | exceptNeg hs =>
    cases hc
    refine ⟨rfl, lo, _, [], by simp, Nat.le_refl _, hs, fun r cs' i1 L S he => ?_⟩
    rw [List.nil_append]
    cases r with
    | SUCCESS => exact ⟨L, rfl, he.low, he.high, he.left, fun h => by cases h⟩
    | FAILURE =>
      exact ⟨_, L, rfl, he.left, .exceptOp he.low (.new (Nat.le_refl _) he.high)⟩
    | PARTIAL => exact .same he (Nat.le_refl _) (fun h => by cases h)
  | @exceptOp op neg b i own hb hs =>
    cases hc
    refine ⟨rfl, b, _, [], by simp, hb, hs, fun r cs' i1 L S he => ?_⟩
    rw [List.nil_append]
    have : after (.except cp neg) (.except true (fresh cp)) r cs' i1 (L ++ S) =
      some (.ret r i1 (L ++ S)) := by cases r <;> rfl
    rw [this]
    exact .same he hb fun hr hp => Nat.lt_of_le_of_lt hb (he.ate hr hp)
  | @listOp op sep b i own m hb hs hm hm' =>
    cases hc
    refine ⟨rfl, b, own, [m], rfl, hb, hs, fun r cs' i1 L S he => ?_⟩
    cases r with
    | SUCCESS =>
      obtain ⟨x, L', e, h1, h2, h3⟩ := pop_own (S := S) (he.left.mono hb) hm hm'
      simp only [after, e]
      refine ⟨List.replicate (marks sep) i1 ++ [i1], L', by simp, h3,
        .listSep (Nat.le_trans hb he.low) (.new (Nat.le_refl _) he.high) (Nat.le_trans hb he.low)
          he.high⟩
    | FAILURE =>
      have he' : Ended t c lo cp .FAILURE i1 L :=
        ⟨Nat.le_trans hb he.low, he.high, he.left.mono hb, fun h => by cases h⟩
      exact .back he' hm hm' (fun h => by cases h)
    | PARTIAL =>
      exact ⟨L ++ [m], by simp, Nat.le_trans hb he.low, he.high,
        (he.left.mono hb).append (.one hm hm'), fun h => by cases h⟩
  | @listSep op sep b i own m hb hs hm hm' =>
    cases hc
    refine ⟨rfl, b, own, [m], rfl, hb, hs, fun r cs' i1 L S he => ?_⟩
    cases r with
    | SUCCESS =>
      simp only [after]
      cases L with
      | nil =>
        exact ⟨List.replicate (marks op) i1 ++ [m], [], by simp, .nil,
          .listOp (Nat.le_trans hb he.low) (.new (Nat.le_refl _) he.high) hm hm'⟩
      | cons x L =>
        have hx := he.left x (by simp)
        exact ⟨List.replicate (marks op) i1 ++ [x], L ++ [m], by simp,
          Within.append (fun y hy => (he.left.mono hb) y (List.mem_cons_of_mem _ hy)) (.one hm hm'),
          .listOp (Nat.le_trans hb he.low) (.new (Nat.le_refl _) he.high)
            (Nat.le_trans hb hx.1) hx.2⟩
    | FAILURE =>
      have he' : Ended t c lo cp .FAILURE i1 L :=
        ⟨Nat.le_trans hb he.low, he.high, he.left.mono hb, fun h => by cases h⟩
      exact .back he' hm hm' (fun h => by cases h)
    | PARTIAL =>
      exact ⟨L ++ [m], by simp, Nat.le_trans hb he.low, he.high,
        (he.left.mono hb).append (.one hm hm'), fun h => by cases h⟩
  | @skipping s p b i own own2 hb hs hl2 hw2 =>
    cases hc
    refine ⟨rfl, b, own, own2, rfl, hb, hs, fun r cs' i1 L S he => ?_⟩
    have hsplit : ∃ a d, L ++ own2 = a ++ d ∧ a.length = marks p ∧ Within t lo a ∧ Within t lo d := by
      obtain ⟨a, d, e, h1, _, h2, h3⟩ := split_own (n := marks p) (k := L.length)
        (by rw [List.length_append, hl2, Nat.add_comm]) ((he.left.mono hb).append hw2)
      exact ⟨a, d, e, h1, h2, h3⟩
    obtain ⟨a, d, e, h1, h2, h3⟩ := hsplit
    have e' : L ++ (own2 ++ S) = a ++ (d ++ S) := by rw [← List.append_assoc, e, List.append_assoc]
    rw [e']
    cases r with
    | SUCCESS =>
      exact ⟨List.replicate (marks cp) i1 ++ a, d, by simp, h3,
        .skipping (Nat.le_trans hb he.low) (.new (Nat.le_refl _) he.high) h1 h2⟩
    | FAILURE =>
      exact ⟨a, d, rfl, h3, .skipped ⟨Nat.le_trans hb he.low, he.high, h1, h2⟩⟩
    | PARTIAL =>
      exact ⟨a ++ d, by simp, Nat.le_trans hb he.low, he.high, h2.append h3, fun h => by cases h⟩

end

/-- Nothing is ever read before the place where the parser was constructed. -/
theorem low_ended {env : Env} {t : List Ch} {c : Nat → Bool}
    (henv : ∀ id q sk, env id = some q → Comp sk → Comp (elabP sk RecurChildReqs q))
    (hc : ∀ id q, env id = some q → c id = true → q.eats c = true)
    {P st i S0 r i' S'} (h : Big env t P st i S0 r i' S') :
    ∀ {lo own S}, Comp P → S0 = own ++ S →
      (Sit t c lo P st i own ∨ (st = fresh P ∧ Start t lo P i own)) →
      ∃ L, S' = L ++ S ∧ Ended t c lo P r i' L := by
  induction h with
  | @leaf P st i S0 n r st' i' S' hl hr =>
    intro lo own S _ hS hs
    rcases hs with hs | ⟨rfl, hs⟩
    · cases hs <;> cases hl
    · have hm : marks P = 0 := by cases P <;> first | rfl | cases hl
      have hown : own = [] := List.length_eq_zero_iff.1 (hs.len.trans hm)
      subst hown
      rw [List.nil_append] at hS
      subst hS
      obtain ⟨n', r', st2, i2, hr', he⟩ := leaf_halts (env := env) (t := t) hl i S0
      have := run_unique hr hr'
      simp only [Prod.mk.injEq, World.mk.injEq, Cursor.mk.injEq] at this
      obtain ⟨⟨rfl, _⟩, ⟨_, rfl, rfl, _⟩, _⟩ := this
      have he := he c hs.high
      exact ⟨[], rfl, Nat.le_trans hs.low he.low, he.high, .nil,
        fun h1 h2 => Nat.lt_of_le_of_lt hs.low (he.ate h1 h2)⟩
  | @ret P st i S0 cp cs r1 cs' i1 S1 r i' S' hch hb ha ih =>
    intro lo own S hP hS hs
    have hsit : Sit t c lo P st i own := by
      rcases hs with hs | ⟨rfl, hs⟩
      · exact hs
      · obtain ⟨h1, h2⟩ := childOf_some hch
        exact hs.sit hP (by simpa using h1) (by intro id sk h; subst h; cases hch)
    obtain ⟨rfl, b, own', rest, rfl, hlo, hst, hnext⟩ := sit_step hsit hP hch
    rw [List.append_assoc] at hS
    obtain ⟨L, rfl, he⟩ := ih (childOf_comp hch hP) hS (.inr ⟨rfl, hst⟩)
    have := hnext r1 cs' i1 L S he
    rw [ha] at this
    exact this
  | @cont P st i S0 cp cs r1 cs' i1 S1 st2 i2 S2 r i' S' hch hb ha hb2 ih ih2 =>
    intro lo own S hP hS hs
    have hsit : Sit t c lo P st i own := by
      rcases hs with hs | ⟨rfl, hs⟩
      · exact hs
      · obtain ⟨h1, h2⟩ := childOf_some hch
        exact hs.sit hP (by simpa using h1) (by intro id sk h; subst h; cases hch)
    obtain ⟨rfl, b, own', rest, rfl, hlo, hst, hnext⟩ := sit_step hsit hP hch
    rw [List.append_assoc] at hS
    obtain ⟨L, rfl, he⟩ := ih (childOf_comp hch hP) hS (.inr ⟨rfl, hst⟩)
    have := hnext r1 cs' i1 L S he
    rw [ha] at this
    obtain ⟨own2, L2, rfl, hw, hsit2⟩ := this
    obtain ⟨L3, rfl, he3⟩ := ih2 hP rfl (.inl hsit2)
    exact ⟨L3 ++ L2, by simp, he3.low, he3.high, he3.left.append hw, he3.ate⟩
  | @recurNone id sk q i S0 r i' S' hq hb ih =>
    intro lo own S hP hS hs
    rcases hs with hs | ⟨_, hs⟩
    · cases hs
    · cases hP with
      | recur hsk =>
      have hown : own = [] := List.length_eq_zero_iff.1 hs.len
      subst hown
      rw [List.nil_append] at hS
      subst hS
      obtain ⟨L, rfl, he⟩ := ih (henv id q sk hq hsk) rfl (.inr ⟨rfl, .new hs.low hs.high⟩)
      refine ⟨L, rfl, he.low, he.high, he.left, fun hr hp => he.ate hr ?_⟩
      rw [elabP_eats]
      exact hc id q hq hp
  | @recurSome id sk q c' i S0 r i' S' hq hb ih =>
    intro lo own S hP hS hs
    rcases hs with hs | ⟨h, _⟩
    · cases hs
    · cases h

end Abu
