import Verif.Proofs.CalculatorUndefined
import Verif.Proofs.CalculatorText
/-
What the calculator does with any text: parentheses that are read in vain may contain expressions
without a value.
-/
namespace Abu

section
variable {t : List Ch}

/-! ### Where there is nothing -/

theorem paren_fails? {U k} (hl : ∀ c ∈ t, IsChar c) (hn : NoNumber (t.drop k))
    (h : ∀ j m o p bnd, Lead t j k → Has m o p →
      (∃ i' m', SeqEnds calcEnv (.at o p .int) bnd t [none, some 0, none]
        [litP 40, .skip blankP (.recur 0 blankP), litP 41] j k m .FAILURE i' m' ∧ Others m o m') ∨
      (U ∧ SeqDies calcEnv (.at o p .int) bnd t [none, some 0, none]
        [litP 40, .skip blankP (.recur 0 blankP), litP 41] j k m)) :
    OperandFails? U primaryP t k := by
  intro j i m o p bnd hj hi hm
  obtain ⟨i1, m1, h1, h2⟩ := Ends.int_fail (env := calcEnv) (bnd := bnd) (j := j) hl hn hm
  rcases h j m1 o p bnd hj h2.has' with ⟨i', m2, h3, h4⟩ | ⟨hu, h3⟩
  · refine .inl ⟨j, m2, .blank hi (AltEnds.ends (.cons (.blank hi.end_at (.clean_fail h1))
      (.last (.blank hj (.clean_fail h3.ends))))), fun o' ho' hne => ?_⟩
    have := h2.others o' ho' hne
    rw [← this]
    rw [List.getElem?_eq_getElem ho'] at this
    exact h4 o' (lt_of_getElem? this) hne
  · exact .inr ⟨hu, .blank hi (AltDies.dies (.cons (.blank hi.end_at (.clean_fail h1))
      (.here (.blank hj (.clean h3.dies)))))⟩

theorem fails_hollow? {U k k2} (hl : ∀ c ∈ t, IsChar c) (h0 : t[k]? = some 40) (hk2 : Lead t (k + 1) k2)
    (h : OperandFails? U primaryP t k2) : OperandFails? U primaryP t k := by
  refine paren_fails? hl (by rw [drop_of_getElem? h0]; exact noNumber_open) fun j m o p bnd hj hm => ?_
  rcases level_fails? (ops := [43, 45, 0]) (m := m) (o := o) (p := p) (bnd := bnd)
    (h.level (ops := [42, 47, 0])) hk2.end_at with ⟨i', m', h1, h2⟩ | ⟨hu, h1⟩
  · exact .inl ⟨i', m', .cons (d := .nil) rfl (.lit hj.end_at h0) (.fail (d := .at o p .int) rfl
      (recur_ends hk2 h1)), fun o' ho' _ => h2 o' ho'⟩
  · exact .inr ⟨hu, .cons (d := .nil) rfl (.lit hj.end_at h0) (.here (d := .at o p .int) rfl (recur_dies hk2 h1))⟩

theorem fails_unclosed? {U : Prop} {k k2 k3 v x} (hl : ∀ c ∈ t, IsChar c) (h0 : t[k]? = some 40) (hv : v = none → U)
    (hk2 : Lead t (k + 1) k2) (h : Level? U [43, 45, 0] (.skip blankP muldivP) t k2 v x)
    (hx : Stuck? U [43, 45, 0] (.skip blankP muldivP) t x) (hk3 : Lead t x k3) (h1 : t[k3]? ≠ some 41) :
    OperandFails? U primaryP t k := by
  refine paren_fails? hl (by rw [drop_of_getElem? h0]; exact noNumber_open) fun j m o p bnd hj hm => ?_
  rcases h.ends (bnd := bnd) hx hk2.end_at hm with ⟨m', h2, _, _, h3⟩ | ⟨hu, h2⟩
  · exact .inl ⟨k3, m', .cons (d := .nil) rfl (.lit hj.end_at h0) (.cons (d := .at o p .int) rfl
      (recur_ends hk2 h2) (.last (d := .nil) rfl (.lit_fail hk3 h1) (by simp))), h3.others⟩
  · exact .inr ⟨hu.elim hv id, .cons (d := .nil) rfl (.lit hj.end_at h0) (.here (d := .at o p .int) rfl
      (recur_dies hk2 h2))⟩

/-- As `FailsOn`. -/
def FailsOn? (U : Prop) (t r : List Ch) : Prop :=
  ∀ k0, t.drop k0 = r → ∃ k, Lead t k0 k ∧ OperandFails? U primaryP t k

/-- As `StuckOn`. -/
def StuckOn? (U : Prop) (t r : List Ch) : Prop :=
  ∀ x, t.drop x = r →
    Stuck? U [42, 47, 0] primaryP t x ∧ Stuck? U [43, 45, 0] (.skip blankP muldivP) t x

theorem failsOn_blank? {U r} (ih : FailsOn? U t r) : FailsOn? U t (32 :: r) := by
  intro k0 ht
  obtain ⟨h1, h2, _⟩ := drop_cons ht
  obtain ⟨k, h3, h4⟩ := ih _ h2
  exact ⟨k, .more h1 h3, h4⟩

theorem FailsOn.weak {U r} (h : FailsOn t r) : FailsOn? U t r := by
  intro k0 ht
  obtain ⟨k, h1, h2⟩ := h k0 ht
  exact ⟨k, h1, h2.weak⟩

theorem failsOn_hollow? {U r} (hl : ∀ c ∈ t, IsChar c) (ih : FailsOn? U t r) : FailsOn? U t (40 :: r) := by
  intro k0 ht
  obtain ⟨h1, h2, _⟩ := drop_cons ht
  obtain ⟨k, h3, h4⟩ := ih _ h2
  exact ⟨k0, .here (by rw [h1]; simp), fails_hollow? hl h1 h3 h4⟩

theorem failsOn_unclosed? {U : Prop} {w e s rest} (hl : ∀ c ∈ t, IsChar c) (hw : Blanks w) (he : Written .sum e s)
    (hwh : Whole s rest) (hv : e.value = none → U) (ih : StuckOn? U t rest)
    (hc : ∀ w' t', rest = w' ++ 41 :: t' → ¬ Blanks w') : FailsOn? U t (40 :: (w ++ (s ++ rest))) := by
  intro k0 ht
  obtain ⟨h1, h2, _⟩ := drop_cons ht
  have h3 := drop_add h2
  have h4 := drop_add h3
  obtain ⟨hs1, hs2⟩ := ih _ h4
  have hlev := he.means? h3 hl hwh hs1
  obtain ⟨w', h5, h6, h7, h8⟩ := exists_lead t (k0 + 1 + w.length + s.length)
  refine ⟨k0, .here (by rw [h1]; simp), fails_unclosed? hl h1 hv (lead_blanks h2 hw (he.lead h3)) hlev hs2 h8 ?_⟩
  intro h9
  rw [h4, drop_of_getElem? h9] at h5
  exact hc _ _ h5 h6

theorem stuckOn_of? {U r} (hl : ∀ c ∈ t, IsChar c)
    (h : ∀ (w : List Ch) (op : Op) (t' : List Ch), r = w ++ op.symbol :: t' → Blanks w → FailsOn? U t t') :
    StuckOn? U t r := by
  intro x ht
  obtain ⟨w, h1, h2, h3, h4⟩ := exists_lead t x
  have key : ∀ op : Op, t[x + w.length]? = some op.symbol →
      ∃ k2, Lead t (x + w.length + 1) k2 ∧ OperandFails? U primaryP t k2 := by
    intro op hop
    have h5 : r = w ++ op.symbol :: t.drop (x + w.length + 1) := by
      rw [← ht, h1, ← drop_of_getElem? hop]
    exact h w op _ h5 h2 _ rfl
  refine ⟨⟨_, h4, fun c hc hv => ?_⟩, ⟨_, h4, fun c hc hv => ?_⟩⟩
  · have hch := hl c (List.mem_of_getElem? hc)
    refine ⟨hch, ?_⟩
    rcases (valid_mul hch).1 hv with rfl | rfl
    · exact key .mul hc
    · exact key .div hc
  · have hch := hl c (List.mem_of_getElem? hc)
    refine ⟨hch, ?_⟩
    have : ∃ k2, Lead t (x + w.length + 1) k2 ∧ OperandFails? U primaryP t k2 := by
      rcases (valid_add hch).1 hv with rfl | rfl
      · exact key .add hc
      · exact key .sub hc
    obtain ⟨k2, h5, h6⟩ := this
    exact ⟨k2, h5, h6.level⟩

theorem LongestExpr.primaryless {t' w e s rest w1 u} {op : Op} (h : LongestExpr t' w e s rest)
    (h1 : rest = w1 ++ op.symbol :: u) (h2 : Blanks w1) : Primaryless u := by
  intro w2 b u' rest' h3 h4 hb
  obtain ⟨e', he⟩ := h.written.extend (op := op) h2 h4 hb
  have := h.longest w e' _ rest' (by rw [h.split, h1, h3]; simp) h.blanks he
  simp at this
  omega

/-- There is one longest expression. -/
theorem LongestExpr.same {t' w e s rest w' e' s' rest'} (h : LongestExpr t' w e s rest)
    (h' : LongestExpr t' w' e' s' rest') : w = w' ∧ s = s' ∧ rest = rest' := by
  have h1 := h.longest w' e' s' rest' h'.split h'.blanks h'.written
  have h2 := h'.longest w e s rest h.split h.blanks h.written
  have key : ∀ {w w' s s' rest rest' : List Ch} {e e' : Arith}, w ++ (s ++ rest) = w' ++ (s' ++ rest') → Blanks w →
      Blanks w' → Written .sum e s → Written .sum e' s' → w = w' := by
    intro w
    induction w with
    | nil =>
      intro w' s s' rest rest' e e' h _ hw' hs _
      cases w' with
      | nil => rfl
      | cons c w' =>
        obtain ⟨c1, s1, h1, h2⟩ := hs.head
        subst h1
        simp only [List.nil_append, List.cons_append, List.cons.injEq] at h
        exact absurd (h.1.trans (hw' c (by simp))) h2
    | cons c w ih =>
      intro w' s s' rest rest' e e' h hw hw' hs hs'
      cases w' with
      | nil =>
        obtain ⟨c1, s1, h1, h2⟩ := hs'.head
        subst h1
        simp only [List.nil_append, List.cons_append, List.cons.injEq] at h
        exact absurd (h.1.symm.trans (hw c (by simp))) h2
      | cons c' w' =>
        simp only [List.cons_append, List.cons.injEq] at h
        rw [h.1, ih h.2 (fun c hc => hw c (by simp [hc])) (fun c hc => hw' c (by simp [hc])) hs hs']
  have h3 : w ++ (s ++ rest) = w' ++ (s' ++ rest') := by rw [← h.split]; exact h'.split
  have h4 := key h3 h.blanks h'.blanks h.written h'.written
  subst h4
  have h5 := List.append_cancel_left h3
  have h6 := List.append_inj h5 (by omega)
  exact ⟨rfl, h6.1, h6.2⟩

/-- Nothing more can be done with the text after a longest expression. -/
theorem LongestExpr.stuck? {U t' w e s rest} (h : LongestExpr t' w e s rest) (hl : ∀ c ∈ t, IsChar c)
    (hc : ∀ u, u.length < rest.length → u <:+ rest → Primaryless u → (∀ e, Meets u e → Meets t' e) →
      FailsOn? U t u) : StuckOn? U t rest := by
  refine stuckOn_of? hl fun w1 op u h1 h2 => hc u ?_ ?_ ?_ fun e he => .more h h1 h2 he
  · rw [h1]; simp; omega
  · exact ⟨w1 ++ [op.symbol], by rw [h1]; simp⟩
  · exact h.primaryless h1 h2

/-- Where no primary comes next, none is found. -/
theorem Primaryless.fails {U : Prop} (hl : ∀ c ∈ t, IsChar c) {n : Nat} : ∀ {r : List Ch}, r.length ≤ n →
    (∀ c ∈ r, IsChar c) → (∀ e, Meets r e → e.value = none → U) → Primaryless r → FailsOn? U t r := by
  have nothing : FailsOn? U t [] := (failsOn_other hl (by simp) fun sg neg c t' h => by simp at h).weak
  induction n with
  | zero =>
    intro r hn hr hU hp
    cases r with
    | nil => exact nothing
    | cons c r => simp at hn
  | succ n ih =>
    intro r hn hr hU hp
    cases r with
    | nil => exact nothing
    | cons c r =>
      have hn' : r.length ≤ n := by simpa using hn
      have hr' : ∀ c ∈ r, IsChar c := fun c hc => hr c (List.mem_cons_of_mem _ hc)
      by_cases h32 : c = 32
      · subst h32
        refine failsOn_blank? (ih hn' hr' (fun e h => hU e (.blank h)) fun w e s rest h1 h2 => ?_)
        refine hp (32 :: w) e s rest (by rw [h1]; rfl) fun c hc => ?_
        rcases List.mem_cons.1 hc with rfl | hc
        · rfl
        · exact h2 c hc
      by_cases h40 : c = 40
      · subst h40
        by_cases hs : StartsWithExpr r
        · obtain ⟨w, e, s, rest, h⟩ := hs.longest
          have hsuf : rest <:+ r := ⟨w ++ s, by rw [h.split]; simp⟩
          have hmore : StuckOn? U t rest := h.stuck? hl fun u h1 h2 h3 h4 =>
            ih (by have := hsuf.length_le; omega) (fun c hc => hr' c ((h2.trans hsuf).mem hc))
              (fun e he => hU e (.paren (h4 e he))) h3
          have hv : e.value = none → U := hU e (.paren (.here h))
          have hsplit := h.split
          have hwh := h.whole hr'
          subst hsplit
          refine failsOn_unclosed? hl h.blanks h.written hwh hv hmore ?_
          intro w' t' h1 h2
          refine hp [] e (40 :: (w ++ s ++ w' ++ [41])) t' ?_ (by simp [Blanks]) (.paren h.blanks h.written h2)
          rw [h1]; simp
        · exact failsOn_hollow? hl (ih hn' hr' (fun e h => hU e (.paren h)) fun w e s rest h1 h2 h3 => hs ⟨w, e, s, rest, h1, h2, h3.sum⟩)
      · refine (failsOn_other hl (fun c' t' h => by cases h; exact ⟨h32, h40⟩)
          fun sg neg d t' h1 h2 r hr hd => ?_).weak
        exact hp [] _ (sg ++ [d]) t' (by rw [h1]; simp) (by simp [Blanks])
          (.num h2 (.cons hr hd .nil) (by simp))

/-! ### Where the behaviour is undefined -/

/-- Looking for an operand is undefined. -/
def OperandDies (Y : Prog) (t : List Ch) (k : Nat) : Prop :=
  ∀ j i m o p bnd, Lead t j k → Lead t i k → Has m o p → Dies calcEnv Y (.at o p .int) bnd t j i m

theorem OperandDies.inLevel {ops Y k j o p bnd m} (h : OperandDies Y t k) (hj : Lead t j k) :
    Dies calcEnv (levelP ops Y) (.at o p .int) bnd t j k m :=
  .bindDst (.blank hj.end_at (SeqDies.dies (.here (d := .nil) rfl (.blank hj.end_at (.action
    (h j k (m.alloc .int).2 m.objs.length [] (.at o p .int) hj hj.end_at alloc_has))))))

theorem OperandDies.level {ops Y k} (h : OperandDies Y t k) : OperandDies (.skip blankP (levelP ops Y)) t k :=
  fun _ _ _ _ _ _ hj hi _ => .blank hi (h.inLevel hj)

/-- There is an operation of the level and looking for its operand is undefined. -/
def StuckDies (ops : List Ch) (Y : Prog) (t : List Ch) (x : Nat) : Prop :=
  ∃ k c k2, Lead t x k ∧ t[k]? = some c ∧ IsChar c ∧ (setOfCString ops).isValid c = true ∧ Lead t (k + 1) k2 ∧
    OperandDies Y t k2

theorem item_dies {ops Y j i k k2 m} {c : Ch} (hi : Lead t i k) {bnd : Ref} (hc : t[k]? = some c) (hch : IsChar c)
    (hv : (setOfCString ops).isValid c = true) (hk2 : Lead t (k + 1) k2) (hY : OperandDies Y t k2) :
    Dies calcEnv (itemP ops Y) .nil bnd t j i m := by
  obtain ⟨m1, h1, w, w', e1, e2, e3, e4⟩ :=
    modify_sets (m := ⟨m.objs ++ [.tup [.num 0, .num 0]], m.log⟩) (o := m.objs.length) (p := [0])
      (a := .num 0) (b := .num c) (f := fun _ => .ok (.num c)) (by simp [Mem.read, Val.get]) rfl
  have ha : (⟨m.objs ++ [.tup [.num 0, .num 0]], m.log⟩ : Mem).assign (.at m.objs.length [0] .char) (.num c) =
      .ok m1 := by
    simp only [Mem.assign, Ty.char]
    rw [show (Ty.num (NumKind.signed 8)).convert (.num c) = .ok (.num c) from char_convert hch]
    exact h1
  have hw : w = .tup [.num 0, .num 0] := by simpa using e1.symm
  subst hw
  have hw' : w' = .tup [.num c, .num 0] := by simpa [Val.update] using e2.symm
  subst hw'
  refine .blank hi (.action ?_)
  rw [binop_alloc]
  refine .blank hi.end_at (.clean (SeqDies.dies ?_))
  refine .cons (d := .at m.objs.length [0] .char) rfl (.blank hi.end_at (.char hc hv ha)) ?_
  exact .here (d := .at m.objs.length [1] .int) rfl
    (hY (k + 1) (k + 1) m1 m.objs.length [1] bnd hk2 hk2 ⟨_, .num 0, e3, rfl⟩)

theorem StuckDies.tail {ops Y x d m i' Q} (h : StuckDies ops Y t x) : Tail? True ops Y d t x m i' Q := by
  obtain ⟨k, c, k2, hk, hc, hch, hv, hk2, hY⟩ := h
  exact fun i0 hi0 => .inr ⟨trivial, .here (item_dies (lead_from hk hi0) hc hch hv hk2 hY)⟩

theorem Level?.dies {U ops Y k v x j o p bnd m} (h : Level? U ops Y t k v x) (hx : StuckDies ops Y t x)
    (hj : Lead t j k) (hm : Has m o p) : Dies calcEnv (levelP ops Y) (.at o p .int) bnd t j k m := by
  rcases h j m o p x (fun _ => False) True (fun _ => trivial) hj hm fun m1 _ => hx.tail with ⟨_, _, h1⟩ | ⟨_, h1⟩
  · exact h1.elim
  · exact .bindDst (.blank hj.end_at h1)

theorem Level?.operandDies {U ops Y k v x} (h : Level? U ops Y t k v x) (hx : StuckDies ops Y t x) :
    OperandDies (.skip blankP (levelP ops Y)) t k :=
  fun _ _ _ _ _ _ hj hi hm => .blank hi (h.dies hx hj hm)

/-- A sum whose last factor is followed by an operation without a defined operand. -/
theorem Written.sum_dies {e s rest k j o p bnd m} (h : Written .sum e s) (ht : t.drop k = s ++ rest)
    (hl : ∀ c ∈ t, IsChar c) (hw : Whole s rest) (hx : StuckDies [42, 47, 0] primaryP t (k + s.length))
    (hj : Lead t j k) (hm : Has m o p) :
    Dies calcEnv (levelP [43, 45, 0] (.skip blankP muldivP)) (.at o p .int) bnd t j k m := by
  generalize hL : Prec.sum = L at h
  cases h with
  | num => cases hL
  | paren => cases hL
  | operand _ h =>
    subst hL
    have h1 : Level? True [42, 47, 0] primaryP t k _ (k + s.length) := h.means? ht hl hw
    exact (h1.operandDies hx).inLevel hj
  | @bin L op a b s u w1 w2 hop ha hw1 hw2 hb =>
    subst hL
    have ht' : t.drop k = s ++ (w1 ++ op.symbol :: (w2 ++ (u ++ rest))) := by rw [ht]; simp
    have h1 := drop_add ht'
    obtain ⟨hc, h32, hd⟩ := symbol_noDigit (c := op.symbol) (by cases op <;> simp [Op.symbol])
    obtain ⟨hk, hk'⟩ := lead_to h1 hw1 h32
    obtain ⟨_, h2, _⟩ := drop_cons (drop_add h1)
    have h3 := drop_add h2
    have hk2 := lead_blanks h2 hw2 (hb.lead h3)
    have e1 : k + (s ++ w1 ++ op.symbol :: (w2 ++ u)).length =
        k + s.length + w1.length + 1 + w2.length + u.length := by
      simp only [List.length_cons, List.length_append]; omega
    rw [e1] at hx
    have hadd : op.symbol = 43 ∨ op.symbol = 45 := by
      revert hop
      cases op <;> simp [Prec.has, Op.symbol]
    have hst' : Stuck? True [42, 47, 0] primaryP t (k + s.length) := by
      refine (stuck_at h1 hw1 h32 ?_).weak
      rw [Bool.eq_false_iff, ne_eq, valid_mul hc]
      omega
    have hma := ha.means? (U := True) ht' hl (.of_noDigit (noDigit_next hw1 hc hd)) hst'
    have hmb : Level? True [42, 47, 0] primaryP t _ _ _ := hb.means? h3 hl (hw.tail hb.ne_nil)
    exact hma.dies ⟨_, _, _, hk, hk', hc, (valid_add hc).2 hadd, hk2, hmb.operandDies hx⟩ hj hm

theorem Written.primary_prefix {L e s} (h : Written L e s) : ∃ e' s' u, s = s' ++ u ∧ Written .primary e' s' := by
  induction h with
  | num h1 h2 h3 => exact ⟨_, _, [], by simp, .num h1 h2 h3⟩
  | paren h1 h2 h3 => exact ⟨_, _, [], by simp, .paren h1 h2 h3⟩
  | operand _ _ ih => exact ih
  | @bin L op a b s u w1 w2 _ _ _ _ _ ih _ =>
    obtain ⟨e', s', v, h1, h2⟩ := ih
    exact ⟨e', s', v ++ (w1 ++ op.symbol :: (w2 ++ u)), by rw [h1]; simp, h2⟩

theorem LongestExpr.not_primaryless {t' w e s rest} (h : LongestExpr t' w e s rest) : ¬ Primaryless t' := by
  obtain ⟨e', s', u, h1, h2⟩ := h.written.primary_prefix
  exact fun hp => hp w e' s' (u ++ rest) (by rw [h.split, h1]; simp) h.blanks h2

/-- Wherever an expression without a value is met, the behaviour is undefined. -/
theorem Meets.dies (hl : ∀ c ∈ t, IsChar c) {r e} (h : Meets r e) (hv : e.value = none) :
    ∀ k0, t.drop k0 = r → ∃ k, Lead t k0 k ∧
      (∀ j m o p bnd, Lead t j k → Has m o p →
        Dies calcEnv (levelP [43, 45, 0] (.skip blankP muldivP)) (.at o p .int) bnd t j k m) ∧
      (Primaryless r → OperandDies primaryP t k) := by
  induction h with
  | @here r w e s rest h =>
    intro k0 ht
    have hr : ∀ c ∈ r, IsChar c := fun c hc => hl c (List.mem_of_mem_drop (by rw [ht]; exact hc))
    have hsplit := h.split
    have hsuf : rest <:+ r := ⟨w ++ s, by rw [hsplit]; simp⟩
    have h0 : t.drop k0 = w ++ (s ++ rest) := by rw [ht]; exact hsplit
    have h1 := drop_add h0
    have h2 := drop_add h1
    obtain ⟨hs1, hs2⟩ := h.stuck? (U := True) hl (fun u _ h3 h4 _ => h4.fails hl (Nat.le_refl _)
      (fun c hc => hr c ((h3.trans hsuf).mem hc)) fun _ _ _ => trivial) _ h2
    have hlev := h.written.means? h1 hl (h.whole hr) hs1
    rw [hv] at hlev
    refine ⟨_, lead_blanks h0 h.blanks (h.written.lead h1), fun j m o p bnd hj hm => ?_,
      fun hp => absurd hp h.not_primaryless⟩
    rcases hlev.ends (bnd := bnd) hs2 hj hm with ⟨_, _, _, h3, _⟩ | ⟨_, h3⟩
    · cases h3
    · exact h3
  | @blank r e h ih =>
    intro k0 ht
    obtain ⟨h1, h2, _⟩ := drop_cons ht
    obtain ⟨k, h3, h4, h5⟩ := ih hv _ h2
    refine ⟨k, .more h1 h3, h4, fun hp => h5 fun w e s rest e1 e2 => ?_⟩
    refine hp (32 :: w) e s rest (by rw [e1]; rfl) fun c hc => ?_
    rcases List.mem_cons.1 hc with rfl | hc
    · rfl
    · exact e2 c hc
  | @paren r e h ih =>
    intro k0 ht
    obtain ⟨h1, h2, _⟩ := drop_cons ht
    obtain ⟨k, h3, h4, _⟩ := ih hv _ h2
    have key : OperandDies primaryP t k0 := by
      intro j i m o p bnd hj hi hm
      have hn : NoNumber (t.drop k0) := by
        rw [drop_of_getElem? h1]
        exact noNumber_open
      obtain ⟨i1, m1, h5, h6⟩ := Ends.int_fail (env := calcEnv) (bnd := bnd) (j := j) hl hn hm
      refine .blank hi (AltDies.dies (.cons (.blank hi.end_at (.clean_fail h5)) (.here (.blank hj ?_))))
      exact .clean (SeqDies.dies (.cons (d := .nil) rfl (.lit hj.end_at h1) (.here (d := .at o p .int) rfl
        (recur_dies h3 (h4 _ _ _ _ _ h3.end_at h6.has')))))
    exact ⟨k0, .here (by rw [h1]; simp), fun j m o p bnd hj _ => (key.level).inLevel hj, fun _ => key⟩
  | @more r w a s rest w1 t' e op h h1 h2 _ ih =>
    intro k0 ht
    have hr : ∀ c ∈ r, IsChar c := fun c hc => hl c (List.mem_of_mem_drop (by rw [ht]; exact hc))
    have h0 : t.drop k0 = w ++ (s ++ rest) := by rw [ht]; exact h.split
    have h3 := drop_add h0
    have h4 := drop_add h3
    have h4' := h4
    rw [h1] at h4
    obtain ⟨hc, h32, hd⟩ := symbol_noDigit (c := op.symbol) (by cases op <;> simp [Op.symbol])
    obtain ⟨hk, hk'⟩ := lead_to h4 h2 h32
    obtain ⟨_, h5, _⟩ := drop_cons (drop_add h4)
    obtain ⟨k2, hk2, _, h6⟩ := ih hv _ h5
    have hY := h6 (h.primaryless h1 h2)
    refine ⟨_, lead_blanks h0 h.blanks (h.written.lead h3), fun j m o p bnd hj hm => ?_,
      fun hp => absurd hp h.not_primaryless⟩
    by_cases hop : op.symbol = 42 ∨ op.symbol = 47
    · exact h.written.sum_dies h3 hl (h.whole hr) ⟨_, _, _, hk, hk', hc, (valid_mul hc).2 hop, hk2, hY⟩ hj hm
    · have hadd : op.symbol = 43 ∨ op.symbol = 45 := by
        revert hop
        cases op <;> simp [Op.symbol]
      have hst' : Stuck? True [42, 47, 0] primaryP t (k0 + w.length + s.length) := by
        refine (stuck_at h4 h2 h32 ?_).weak
        rw [Bool.eq_false_iff, ne_eq, valid_mul hc]
        exact hop
      have hma := h.written.means? (U := True) h3 hl (h.whole hr) hst'
      exact hma.dies ⟨_, _, _, hk, hk', hc, (valid_add hc).2 hadd, hk2, hY.level⟩ hj hm

end
end Abu
