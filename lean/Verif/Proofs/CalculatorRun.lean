import Verif.Proofs.Overwrite
import Verif.Proofs.Calculator
/-
What the calculator computes.
-/
namespace Abu

/-- Objects of `m` other than `o` are as before. -/
def Others (m : Mem) (o : Nat) (m' : Mem) : Prop :=
  ∀ o', o' < m.objs.length → o' ≠ o → m'.objs[o']? = m.objs[o']?

/-- The operand at `k` has value `v` and ends at `i'`. -/
def Operand (Y : Prog) (t : List Ch) (k : Nat) (v : Int) (i' : Nat) : Prop :=
  ∀ j i m o p bnd, Lead t j k → Lead t i k → Has m o p →
    ∃ m', Ends calcEnv Y (.at o p .int) bnd t j i m .SUCCESS i' m' ∧ Sets m o p (.num v) m'

/-- There is no operand at `k`. -/
def OperandFails (Y : Prog) (t : List Ch) (k : Nat) : Prop :=
  ∀ j i m o p bnd, Lead t j k → Lead t i k → Has m o p →
    ∃ i' m', Ends calcEnv Y (.at o p .int) bnd t j i m .FAILURE i' m' ∧ Others m o m'

theorem Sets.others {m o p v m'} (h : Sets m o p v m') : Others m o m' := by
  obtain ⟨_, _, _, _, _, h⟩ := h; exact h

theorem Grows.others {m m1 m2 o} (h : Grows m m1) (ho : m.objs.length ≤ o) (h' : Others m1 o m2) :
    Grows m m2 := fun o' ho' => by rw [h' o' (h.lt ho') (by omega), h o' ho']

section
variable {t : List Ch} {m : Mem} {o : Nat} {p : List Nat}

/-- The fresh landing object of `make_binop`. -/
theorem binop_alloc : m.alloc binopAct.landing =
    (.at m.objs.length [] (.tup [.char, .int]), ⟨m.objs ++ [.tup [.num 0, .num 0]], m.log⟩) := rfl

theorem grows_append {w : Val} : Grows m ⟨m.objs ++ [w], m.log⟩ :=
  fun _ ho => List.getElem?_append_left ho

theorem char_convert {c : Ch} (h : IsChar c) : Ty.char.convert (.num c) = .ok (.num c) := by
  unfold IsChar at h
  simp only [Ty.char, Ty.convert, NumKind.wrap, Except.ok.injEq, Val.num.injEq]
  omega

/-- What `make_binop` does. -/
theorem act_binop {m2 : Mem} {n : Nat} {c l v z : Int} (hn : m2.objs[n]? = some (.tup [.num c, .num v]))
    (hl : m2.read (.at o p .int) = .ok (.num l)) (hz : binop c l v = .num z) :
    ∃ m3, m2.act binopAct (.at n [] (.tup [.char, .int])) .nil (.at o p .int) = .ok m3 ∧
      Sets m2 o p (.num z) m3 := by
  obtain ⟨m3, h1, h2⟩ := modify_sets (m := { m2 with log := m2.log ++ [⟨1, .tup [.num c, .num v]⟩] })
    (o := o) (p := p) (a := .num l) (f := fun old => old.overwrite (.num z)) (b := .num z) hl
    (overwrite_whole nofun)
  refine ⟨m3, ?_, h2⟩
  have hr : m2.read (.at n [] (.tup [.char, .int])) = .ok (.tup [.num c, .num v]) := by
    simp only [Mem.read, hn, Val.get]
  simp only [Mem.act, hr, hl, binopAct, if_true, hz, h1]

/-- What `assign` does. -/
theorem act_assign {m2 : Mem} {n : Nat} {v : Int} (hn : m2.objs[n]? = some (.num v)) (hm : Has m2 o p) :
    ∃ m3, m2.act assignAct (.at n [] .int) .nil (.at o p .int) = .ok m3 ∧
      Sets m2 o p (.num v) m3 := by
  obtain ⟨a, ha⟩ := hm.read
  obtain ⟨m3, h1, h2⟩ := modify_sets (m := { m2 with log := m2.log ++ [⟨0, .num v⟩] })
    (o := o) (p := p) (a := a) (f := fun old => old.overwrite (.num v)) (b := .num v) (ha .nil)
    (overwrite_whole nofun)
  refine ⟨m3, ?_, h2⟩
  have hr : m2.read (.at n [] .int) = .ok (.num v) := by
    simp only [Mem.read, hn, Val.get]
  simp only [Mem.act, hr, ha, assignAct, if_true, h1]

theorem lead_at {k} {c : Ch} (h : t[k]? = some c) (hc : c ≠ 32) : Lead t k k :=
  Lead.here (by rw [h]; simpa using hc)

/-- An operation and its right operand. -/
theorem item_ends {ops Y c l v z j i k k2 i'} (hi : Lead t i k) (hc : t[k]? = some c) (hch : IsChar c)
    (hv : (setOfCString ops).isValid c = true) (hk2 : Lead t (k + 1) k2)
    (hY : Operand Y t k2 v i') (hm : Has m o p) (hl : m.read (.at o p .int) = .ok (.num l))
    (hz : binop c l v = .num z) :
    ∃ m', Ends calcEnv (itemP ops Y) .nil (.at o p .int) t j i m .SUCCESS i' m' ∧
      Sets m o p (.num z) m' := by
  -- the operator
  obtain ⟨m1, h1, w, w', e1, e2, e3, e4⟩ :=
    modify_sets (m := ⟨m.objs ++ [.tup [.num 0, .num 0]], m.log⟩) (o := m.objs.length) (p := [0])
      (a := .num 0) (b := .num c) (f := fun _ => .ok (.num c)) (by simp [Mem.read, Val.get]) rfl
  have ha : (⟨m.objs ++ [.tup [.num 0, .num 0]], m.log⟩ : Mem).assign (.at m.objs.length [0] .char) (.num c) =
      .ok m1 := by
    simp only [Mem.assign, Ty.char]
    rw [show (Ty.num (NumKind.signed 8)).convert (.num c) = .ok (.num c) from char_convert hch]
    exact h1
  have hw : w = .tup [.num 0, .num 0] := by simpa using e1.symm
  subst hw
  have hw' : w' = .tup [.num c, .num 0] := by simpa [Val.update] using e2.symm
  subst hw'
  have hg1 : Grows m m1 := fun o' ho' => by
    rw [e4 o' (by simp; omega) (by omega)]; exact grows_append o' ho'
  -- the operand
  obtain ⟨m2, h2, w, w', f1, f2, f3, f4⟩ := hY (k + 1) (k + 1) m1 m.objs.length [1] (.at o p .int) hk2 hk2
    ⟨_, .num 0, e3, rfl⟩
  rw [e3] at f1
  cases f1
  have hw' : w' = .tup [.num c, .num v] := by simpa [Val.update] using f2.symm
  subst hw'
  have hg2 : Grows m m2 := fun o' ho' => by
    rw [f4 o' (hg1.lt ho') (by omega)]; exact hg1 o' ho'
  -- the action
  have hl2 : m2.read (.at o p .int) = .ok (.num l) := by
    simp only [Mem.read, hg2 o hm.lt]; exact hl
  obtain ⟨m3, h3, h4⟩ := act_binop f3 hl2 hz
  refine ⟨m3, .blank hi (.action (m1 := m2) ?_ ?_), hg2.sets hm.lt h4⟩
  · rw [binop_alloc]
    refine .blank hi.end_at (.clean (SeqEnds.ends ?_))
    refine .cons (d := .at m.objs.length [0] .char) rfl (.blank hi.end_at (.char hc hv ha)) ?_
    exact .last (d := .at m.objs.length [1] .int) rfl h2 (by simp)
  · rw [binop_alloc]
    exact h3

/-- No operation, or an operation without right operand. -/
theorem item_fails {ops Y j i k} (hi : Lead t i k) {bnd : Ref}
    (h : ∀ c, t[k]? = some c → (setOfCString ops).isValid c = true →
      IsChar c ∧ ∃ k2, Lead t (k + 1) k2 ∧ OperandFails Y t k2) :
    ∃ m', Ends calcEnv (itemP ops Y) .nil bnd t j i m .FAILURE j m' ∧ Grows m m' := by
  by_cases hc : ∃ c, t[k]? = some c ∧ (setOfCString ops).isValid c = true
  · obtain ⟨c, hc, hv⟩ := hc
    obtain ⟨hch, k2, hk2, hY⟩ := h c hc hv
    obtain ⟨m1, h1, w, w', e1, e2, e3, e4⟩ :=
      modify_sets (m := ⟨m.objs ++ [.tup [.num 0, .num 0]], m.log⟩) (o := m.objs.length) (p := [0])
        (a := .num 0) (b := .num c) (f := fun _ => .ok (.num c)) (by simp [Mem.read, Val.get]) rfl
    have ha : (⟨m.objs ++ [.tup [.num 0, .num 0]], m.log⟩ : Mem).assign (.at m.objs.length [0] .char) (.num c) =
        .ok m1 := by
      simp only [Mem.assign, Ty.char]
      rw [show (Ty.num (NumKind.signed 8)).convert (.num c) = .ok (.num c) from char_convert hch]
      exact h1
    have hw : w = .tup [.num 0, .num 0] := by simpa using e1.symm
    subst hw
    have hw' : w' = .tup [.num c, .num 0] := by simpa [Val.update] using e2.symm
    subst hw'
    have hg1 : Grows m m1 := fun o' ho' => by
      rw [e4 o' (by simp; omega) (by omega)]; exact grows_append o' ho'
    obtain ⟨i', m2, h2, h3⟩ := hY (k + 1) (k + 1) m1 m.objs.length [1] bnd hk2 hk2 ⟨_, .num 0, e3, rfl⟩
    refine ⟨m2, .blank hi (.action_fail ?_), hg1.others (Nat.le_refl _) h3⟩
    rw [binop_alloc]
    refine .blank hi.end_at (.clean_fail (i' := i') (SeqEnds.ends ?_))
    refine .cons (d := .at m.objs.length [0] .char) rfl (.blank hi.end_at (.char hc hv ha)) ?_
    exact .fail (d := .at m.objs.length [1] .int) rfl h2
  · refine ⟨⟨m.objs ++ [.tup [.num 0, .num 0]], m.log⟩, .blank hi (.action_fail ?_), grows_append⟩
    rw [binop_alloc]
    refine .blank hi.end_at (.clean_fail (i' := k) (SeqEnds.ends ?_))
    refine .fail (d := .at m.objs.length [0] .char) rfl (.blank hi.end_at (.char_fail fun c h1 => ?_))
    rw [Bool.eq_false_iff]
    exact fun h2 => hc ⟨c, h1, h2⟩

/-! ### Levels -/

/-- The rest of a level, before or after the blanks at `x`. -/
def Tail (ops : List Ch) (Y : Prog) (d : Ref) (t : List Ch) (x : Nat) (m : Mem) (i' : Nat) (Q : Mem → Prop) :
    Prop :=
  ∀ i0, (i0 = x ∨ Lead t x i0) → ∃ m', StarEnds calcEnv (itemP ops Y) .nil d t x i0 m i' m' ∧ Q m'

/-- A level does not go on at `x`. -/
def Stuck (ops : List Ch) (Y : Prog) (t : List Ch) (x : Nat) : Prop :=
  ∃ k, Lead t x k ∧ ∀ c, t[k]? = some c → (setOfCString ops).isValid c = true →
    IsChar c ∧ ∃ k2, Lead t (k + 1) k2 ∧ OperandFails Y t k2

theorem lead_from {x k i0 : Nat} (h : Lead t x k) (h0 : i0 = x ∨ Lead t x i0) : Lead t i0 k := by
  rcases h0 with rfl | h0
  · exact h
  · rw [h.det h0]; exact h0.end_at

theorem Stuck.tail {ops Y x d} (h : Stuck ops Y t x) : Tail ops Y d t x m x (Grows m) := by
  obtain ⟨k, hk, h⟩ := h
  intro i0 hi0
  obtain ⟨m', h1, h2⟩ := item_fails (m := m) (bnd := d) (j := x) (lead_from hk hi0) h
  exact ⟨m', .stop h1, h2⟩

/-- One more operation of a level. -/
theorem Tail.more {ops Y c l v z x k k2 i' i'' Q} (hx : Lead t x k) (hc : t[k]? = some c) (hch : IsChar c)
    (hv : (setOfCString ops).isValid c = true) (hk2 : Lead t (k + 1) k2)
    (hY : Operand Y t k2 v i') (hm : Has m o p) (hl : m.read (.at o p .int) = .ok (.num l))
    (hz : binop c l v = .num z)
    (h : ∀ m1, Sets m o p (.num z) m1 → Tail ops Y (.at o p .int) t i' m1 i'' Q) :
    Tail ops Y (.at o p .int) t x m i'' Q := by
  intro i0 hi0
  obtain ⟨m1, h1, h2⟩ := item_ends (j := x) (lead_from hx hi0) hc hch hv hk2 hY hm hl hz
  obtain ⟨m2, h3, h4⟩ := h m1 h2 i' (.inl rfl)
  exact ⟨m2, .more h1 h3, h4⟩

/-- The whole level, from its first operand. -/
theorem chain_ends {ops Y v j k i' i'' Q} (hY : Operand Y t k v i') (hj : Lead t j k) (hm : Has m o p)
    (h : ∀ m1, Sets m o p (.num v) m1 → Tail ops Y (.at o p .int) t i' m1 i'' Q) :
    ∃ m', Ends calcEnv (chainP ops Y) (.at o p .int) (.at o p .int) t j k m .SUCCESS i'' m' ∧ Q m' := by
  obtain ⟨m1, h1, h2⟩ := hY j k (m.alloc .int).2 m.objs.length [] (.at o p .int) hj hj.end_at alloc_has
  have hg : Grows m m1 := (alloc_grows .int).fresh (Nat.le_refl _) h2
  have hn : m1.objs[m.objs.length]? = some (.num v) := by
    obtain ⟨w, w', _, e2, e3, _⟩ := h2
    cases e2
    exact e3
  obtain ⟨m2, h3, h4⟩ := act_assign hn (hm.grows hg)
  obtain ⟨w, _, _, _, hw⟩ := exists_lead t i'
  obtain ⟨m3, h5, h6⟩ := h m2 (hg.sets hm.lt h4) _ (.inr hw)
  refine ⟨m3, SeqEnds.ends (.cons (d := .nil) rfl (.blank hj.end_at (.action (m1 := m1) h1 h3)) ?_), h6⟩
  exact .last (d := .nil) rfl (.blank hw h5.ends) (by simp)

theorem Tail.mono {ops Y d x i' Q Q'} (h : Tail ops Y d t x m i' Q) (hQ : ∀ m', Q m' → Q' m') :
    Tail ops Y d t x m i' Q' := fun i0 h0 => by
  obtain ⟨m', h1, h2⟩ := h i0 h0
  exact ⟨m', h1, hQ _ h2⟩

theorem level_fails {ops Y k bnd j} (hY : OperandFails Y t k) (hj : Lead t j k) :
    ∃ i' m', Ends calcEnv (levelP ops Y) (.at o p .int) bnd t j k m .FAILURE i' m' ∧ Grows m m' := by
  obtain ⟨i', m1, h1, h2⟩ := hY j k (m.alloc .int).2 m.objs.length [] (.at o p .int) hj hj.end_at alloc_has
  refine ⟨i', m1, .bindDst (.blank hj.end_at (SeqEnds.ends (.fail (d := .nil) rfl
    (.blank hj.end_at (.action_fail h1))))), ?_⟩
  exact (alloc_grows .int).others (Nat.le_refl _) h2

/-- The text from `k` to `x` is a level of operations with value `v`, in continuation-passing form:
more operations may follow. -/
def Level (ops : List Ch) (Y : Prog) (t : List Ch) (k : Nat) (v : Int) (x : Nat) : Prop :=
  ∀ j m o p i' Q, Lead t j k → Has m o p →
    (∀ m1, Sets m o p (.num v) m1 → Tail ops Y (.at o p .int) t x m1 i' Q) →
    ∃ m', Ends calcEnv (chainP ops Y) (.at o p .int) (.at o p .int) t j k m .SUCCESS i' m' ∧ Q m'

/-- Nothing follows. -/
theorem Level.ends {ops Y k v x j bnd} (h : Level ops Y t k v x) (hx : Stuck ops Y t x) (hj : Lead t j k)
    (hm : Has m o p) : ∃ m', Ends calcEnv (levelP ops Y) (.at o p .int) bnd t j k m .SUCCESS x m' ∧
      Sets m o p (.num v) m' := by
  obtain ⟨m', h1, h2⟩ := h j m o p x (Sets m o p (.num v)) hj hm fun m1 h1 => hx.tail.mono fun m' h2 => h1.grows h2
  exact ⟨m', .bindDst (.blank hj.end_at h1), h2⟩

theorem Level.operand {ops Y k v x} (h : Level ops Y t k v x) (hx : Stuck ops Y t x) :
    Operand (.skip blankP (levelP ops Y)) t k v x := by
  intro j i m o p bnd hj hi hm
  obtain ⟨m', h1, h2⟩ := h.ends (bnd := bnd) hx hj hm
  exact ⟨m', .blank hi h1, h2⟩

theorem OperandFails.level {ops Y k} (h : OperandFails Y t k) :
    OperandFails (.skip blankP (levelP ops Y)) t k := by
  intro j i m o p bnd hj hi hm
  obtain ⟨i', m', h1, h2⟩ := level_fails (ops := ops) (m := m) (o := o) (p := p) (bnd := bnd) h hj
  exact ⟨i', m', .blank hi h1, fun o' ho' _ => h2 o' ho'⟩

/-! ### Primaries -/

theorem primary_num {sg neg ds rs rest k} (hs : Sign sg neg) (hd : DigitString 10 ds rs) (hne : ds ≠ [])
    (hv : fitsInt (positional 10 rs : Int) = true) (ht : t.drop k = sg ++ ds ++ rest)
    (hn : NoDigitNext 10 rest) :
    Operand primaryP t k (withSign neg (positional 10 rs)) (k + (sg ++ ds).length) := by
  intro j i m o p bnd hj hi hm
  obtain ⟨m', h1, h2⟩ := Ends.int (env := calcEnv) (bnd := bnd) (j := j) hs hd hne hv ht hn hm
  exact ⟨m', .blank hi (AltEnds.ends (.here (.blank hi.end_at (.clean h1)))), h2⟩

/-- Not a number: the second alternative, from before the blanks. -/
theorem primary_paren {r k} {i' : Nat → Nat} (hr : r ≠ .PARTIAL) (hl : ∀ c ∈ t, IsChar c) (hn : NoNumber (t.drop k))
    {Q : Mem → Nat → List Nat → Mem → Prop} (hQ : ∀ m o p m1 m2, Sets m o p (.num 0) m1 → Q m1 o p m2 → Q m o p m2)
    (h : ∀ j m o p bnd, Lead t j k → Has m o p →
      ∃ m', Ends calcEnv parenP (.at o p .int) bnd t j k m r (i' j) m' ∧ Q m o p m') :
    ∀ j i m o p bnd, Lead t j k → Lead t i k → Has m o p →
      ∃ m', Ends calcEnv primaryP (.at o p .int) bnd t j i m r (i' j) m' ∧ Q m o p m' := by
  intro j i m o p bnd hj hi hm
  obtain ⟨i1, m1, h1, h2⟩ := Ends.int_fail (env := calcEnv) (bnd := bnd) (j := j) hl hn hm
  obtain ⟨m2, h3, h4⟩ := h j m1 o p bnd hj h2.has'
  refine ⟨m2, .blank hi (AltEnds.ends (.cons (.blank hi.end_at (.clean_fail h1)) ?_)), hQ _ _ _ _ _ h2 h4⟩
  cases r with
  | SUCCESS => exact .here (.blank hj h3)
  | FAILURE => exact .last (.blank hj h3)
  | PARTIAL => exact absurd rfl hr

theorem drop_of_getElem? {k} {c : Ch} (h : t[k]? = some c) : t.drop k = c :: t.drop (k + 1) := by
  obtain ⟨h1, h2⟩ := List.getElem?_eq_some_iff.1 h
  rw [List.drop_eq_getElem_cons h1, h2]

theorem noNumber_open {l : List Ch} : NoNumber (40 :: l) := by
  intro sg neg c t' h hs r hr hd
  cases hs with
  | none =>
    simp only [List.nil_append, List.cons.injEq] at h
    obtain ⟨rfl, _⟩ := h
    rw [isDigitSymbol_iff _ _ (by omega)] at hd
    split at hd <;> omega
  | plus => simp at h
  | minus => simp at h

theorem recur_ends {r i' m' bnd j k k2} {d : Ref} (hk : Lead t k k2)
    (h : Ends calcEnv addsubP d bnd t k2 k2 m r i' m') :
    Ends calcEnv (.skip blankP (.recur 0 blankP)) d bnd t j k m r i' m' :=
  .blank hk (.recur (q := calcAddsub) rfl (by rw [elab_addsub]; exact h))

/-- A parenthesised expression. -/
theorem primary_closed {k k2 k3 v x} (hl : ∀ c ∈ t, IsChar c) (h0 : t[k]? = some 40)
    (hk2 : Lead t (k + 1) k2) (h : Level [43, 45, 0] (.skip blankP muldivP) t k2 v x)
    (hx : Stuck [43, 45, 0] (.skip blankP muldivP) t x) (hk3 : Lead t x k3) (h1 : t[k3]? = some 41) :
    Operand primaryP t k v (k3 + 1) := by
  refine primary_paren (i' := fun _ => k3 + 1) (r := .SUCCESS) (by simp) hl ?_ (Q := fun m o p m' => Sets m o p (.num v) m')
    (fun _ _ _ _ _ h h' => h.trans h') ?_
  · rw [drop_of_getElem? h0]
    exact noNumber_open
  · intro j m o p bnd hj hm
    obtain ⟨m', h2, h3⟩ := h.ends (bnd := bnd) hx hk2.end_at hm
    refine ⟨m', .clean (SeqEnds.ends (.cons (d := .nil) rfl (.lit hj.end_at h0) (.cons (d := .at o p .int) rfl
      (recur_ends hk2 h2) (.last (d := .nil) rfl (.lit hk3 h1) (by simp))))), h3⟩

/-! ### Where there is nothing -/

theorem paren_fails {k} (hl : ∀ c ∈ t, IsChar c) (hn : NoNumber (t.drop k))
    (h : ∀ j m o p bnd, Lead t j k → Has m o p → ∃ i' m',
      SeqEnds calcEnv (.at o p .int) bnd t [none, some 0, none]
        [litP 40, .skip blankP (.recur 0 blankP), litP 41] j k m .FAILURE i' m' ∧ Others m o m') :
    OperandFails primaryP t k := by
  intro j i m o p bnd hj hi hm
  obtain ⟨m', h1, h2⟩ := primary_paren (i' := id) (r := .FAILURE) (by simp) hl hn
    (Q := fun m o p m' => Others m o m') (fun m o p m1 m2 h h' o' ho' hne => by
      have := h.others o' ho' hne
      rw [← this]
      rw [List.getElem?_eq_getElem ho'] at this
      exact h' o' (lt_of_getElem? this) hne)
    (fun j m o p bnd hj hm => by
      obtain ⟨i', m', h1, h2⟩ := h j m o p bnd hj hm
      exact ⟨m', .clean_fail h1.ends, h2⟩) j i m o p bnd hj hi hm
  exact ⟨_, m', h1, h2⟩

theorem fails_other {k} (hl : ∀ c ∈ t, IsChar c) (hn : NoNumber (t.drop k)) (h0 : t[k]? ≠ some 40) :
    OperandFails primaryP t k := by
  refine paren_fails hl hn fun j m o p bnd hj hm => ⟨k, m, .fail (d := .nil) rfl (.lit_fail hj.end_at h0), ?_⟩
  exact fun _ _ _ => rfl

theorem fails_hollow {k k2} (hl : ∀ c ∈ t, IsChar c) (h0 : t[k]? = some 40) (hk2 : Lead t (k + 1) k2)
    (h : OperandFails primaryP t k2) : OperandFails primaryP t k := by
  refine paren_fails hl (by rw [drop_of_getElem? h0]; exact noNumber_open) fun j m o p bnd hj hm => ?_
  obtain ⟨i', m', h1, h2⟩ := level_fails (ops := [43, 45, 0]) (m := m) (o := o) (p := p) (bnd := bnd)
    (h.level (ops := [42, 47, 0])) hk2.end_at
  exact ⟨i', m', .cons (d := .nil) rfl (.lit hj.end_at h0) (.fail (d := .at o p .int) rfl
    (recur_ends hk2 h1)), fun o' ho' _ => h2 o' ho'⟩

theorem fails_unclosed {k k2 k3 v x} (hl : ∀ c ∈ t, IsChar c) (h0 : t[k]? = some 40)
    (hk2 : Lead t (k + 1) k2) (h : Level [43, 45, 0] (.skip blankP muldivP) t k2 v x)
    (hx : Stuck [43, 45, 0] (.skip blankP muldivP) t x) (hk3 : Lead t x k3) (h1 : t[k3]? ≠ some 41) :
    OperandFails primaryP t k := by
  refine paren_fails hl (by rw [drop_of_getElem? h0]; exact noNumber_open) fun j m o p bnd hj hm => ?_
  obtain ⟨m', h2, h3⟩ := h.ends (bnd := bnd) hx hk2.end_at hm
  exact ⟨k3, m', .cons (d := .nil) rfl (.lit hj.end_at h0) (.cons (d := .at o p .int) rfl
    (recur_ends hk2 h2) (.last (d := .nil) rfl (.lit_fail hk3 h1) (by simp))), h3.others⟩

/-! ### Expressions -/

theorem valid_set {s : List Ch} (hs : ∀ c ∈ s, IsChar c ∧ c ≠ 0) {c : Ch} (hc : IsChar c) :
    (setOfCString (s ++ [0])).isValid c = true ↔ c ∈ s :=
  C06_char_sets_denote (.set s) hs c hc

theorem valid_mul {c : Ch} (hc : IsChar c) : (setOfCString [42, 47, 0]).isValid c = true ↔ c = 42 ∨ c = 47 := by
  rw [show ([42, 47, 0] : List Ch) = [42, 47] ++ [0] from rfl, valid_set (by decide) hc]
  simp

theorem valid_add {c : Ch} (hc : IsChar c) : (setOfCString [43, 45, 0]).isValid c = true ↔ c = 43 ∨ c = 45 := by
  rw [show ([43, 45, 0] : List Ch) = [43, 45] ++ [0] from rfl, valid_set (by decide) hc]
  simp

theorem Written.head {L e s} (h : Written L e s) : ∃ c s', s = c :: s' ∧ c ≠ 32 := by
  induction h with
  | @num sg neg ds rs hs hd hne =>
    cases hs with
    | none =>
      cases hd with
      | nil => exact absurd rfl hne
      | @cons c r ds rs hr hc _ =>
        refine ⟨c, ds, rfl, ?_⟩
        rw [isDigitSymbol_iff _ _ (by omega)] at hc
        split at hc <;> omega
    | plus => exact ⟨_, _, rfl, by decide⟩
    | minus => exact ⟨_, _, rfl, by decide⟩
  | paren _ _ _ _ => exact ⟨_, _, rfl, by decide⟩
  | operand _ _ ih => exact ih
  | bin _ _ _ _ _ ih _ =>
    obtain ⟨c, s', rfl, h⟩ := ih
    exact ⟨c, _, rfl, h⟩

theorem Written.lead {L e s rest k} (h : Written L e s) (ht : t.drop k = s ++ rest) : t[k]? ≠ some 32 := by
  obtain ⟨c, s', rfl, hc⟩ := h.head
  rw [(drop_cons ht).1]
  simpa using hc

theorem noDigit_next {w rest : List Ch} {c : Ch} (hw : Blanks w) (hc : IsChar c)
    (hd : ∀ r, r < 10 → ¬ IsDigitSymbol r c) : NoDigitNext 10 (w ++ c :: rest) := by
  intro a l h
  cases w with
  | nil =>
    simp only [List.nil_append, List.cons.injEq] at h
    obtain ⟨rfl, _⟩ := h
    exact ⟨hc, hd⟩
  | cons b w =>
    simp only [List.cons_append, List.cons.injEq] at h
    obtain ⟨rfl, _⟩ := h
    have hb : b = 32 := hw b (by simp)
    subst hb
    refine ⟨by decide, fun r hr h => ?_⟩
    rw [isDigitSymbol_iff _ _ (by omega)] at h
    split at h <;> omega

theorem symbol_noDigit {c : Ch} (h : c = 41 ∨ c = 42 ∨ c = 43 ∨ c = 45 ∨ c = 47) :
    IsChar c ∧ c ≠ 32 ∧ ∀ r, r < 10 → ¬ IsDigitSymbol r c := by
  refine ⟨by unfold IsChar; omega, by omega, fun r hr hd => ?_⟩
  rw [isDigitSymbol_iff _ _ (by omega)] at hd
  split at hd <;> omega

theorem lead_to {w rest : List Ch} {c : Ch} {x} (ht : t.drop x = w ++ c :: rest) (hw : Blanks w) (hc : c ≠ 32) :
    Lead t x (x + w.length) ∧ t[x + w.length]? = some c := by
  have h := (drop_cons (drop_add ht)).1
  exact ⟨lead_blanks ht hw (by rw [h]; simpa using hc), h⟩

theorem stuck_at {ops Y} {w rest : List Ch} {c : Ch} {x} (ht : t.drop x = w ++ c :: rest) (hw : Blanks w) (hc : c ≠ 32)
    (hv : (setOfCString ops).isValid c = false) : Stuck ops Y t x := by
  obtain ⟨h1, h2⟩ := lead_to ht hw hc
  refine ⟨_, h1, fun c' h3 h4 => ?_⟩
  rw [h2] at h3
  cases h3
  rw [hv] at h4
  cases h4

theorem Whole.of_noDigit {s rest : List Ch} (h : NoDigitNext 10 rest) : Whole s rest :=
  fun _ _ _ _ _ _ => h

theorem Whole.tail {s1 s op rest} (h : Whole (s1 ++ op :: (s2 ++ s)) rest) (hs : s ≠ []) : Whole s rest := by
  intro s' c r he hr hd
  exact h (s1 ++ op :: (s2 ++ s')) c r (by rw [he]; simp) hr hd

theorem whole_digits {sg ds rs rest} (hd : DigitString 10 ds rs) (hne : ds ≠ [])
    (h : Whole (sg ++ ds) rest) : NoDigitNext 10 rest := by
  have hlast : ∃ s' c r, ds = s' ++ [c] ∧ r < 10 ∧ IsDigitSymbol r c := by
    clear h
    induction hd with
    | nil => exact absurd rfl hne
    | @cons c r ds rs hr hc hds ih =>
      by_cases h0 : ds = []
      · subst h0; exact ⟨[], c, r, rfl, hr, hc⟩
      · obtain ⟨s', c', r', rfl, h1, h2⟩ := ih h0
        exact ⟨c :: s', c', r', rfl, h1, h2⟩
  obtain ⟨s', c, r, rfl, hr, hc⟩ := hlast
  exact h (sg ++ s') c r (by simp) hr hc

theorem Written.ne_nil {L e s} (h : Written L e s) : s ≠ [] := by
  obtain ⟨c, s', rfl, _⟩ := h.head
  simp

/-- What each kind of text does. -/
def Means (t : List Ch) (k : Nat) (v : Int) (x : Nat) : Prec → Prop
  | .primary => Operand primaryP t k v x
  | .product => Level [42, 47, 0] primaryP t k v x
  | .sum => Stuck [42, 47, 0] primaryP t x → Level [43, 45, 0] (.skip blankP muldivP) t k v x

theorem binop_result {op : Op} {x y z : Int} (h : op.result x y = some z) :
    binop op.symbol x y = .num z := by
  cases op <;> simp only [Op.result, fitsInt_iff] at h <;> split at h <;> cases h <;> rename_i hr
  · simp [Op.symbol, binop, intResult, hr]
  · simp [Op.symbol, binop, intResult, hr]
  · simp [Op.symbol, binop, intResult, hr]
  · simp [Op.symbol, binop, intResult, hr]

theorem Written.means {L e s} (h : Written L e s) : ∀ {v t k rest}, e.value = some v →
    t.drop k = s ++ rest → (∀ c ∈ t, IsChar c) → Whole s rest → Means t k v (k + s.length) L := by
  induction h with
  | @num sg neg ds rs hs hd hne =>
    intro v t k rest hv ht hl hn
    simp only [Arith.value] at hv
    split at hv
    · rename_i hf
      cases hv
      refine primary_num hs hd hne ?_ ht (whole_digits hd hne hn)
      have : ((withSign neg (positional 10 rs)).natAbs : Int) = positional 10 rs := by
        cases neg <;> simp [withSign]
      rwa [this] at hf
    · cases hv
  | @paren e s w1 w2 hw1 he hw2 ih =>
    intro v t k rest hv ht hl hn
    have ht' : t.drop k = 40 :: (w1 ++ (s ++ (w2 ++ 41 :: rest))) := by rw [ht]; simp
    obtain ⟨h0, h1, _⟩ := drop_cons ht'
    have h2 := drop_add h1
    have h3 := drop_add h2
    obtain ⟨hc, h32, hd⟩ := symbol_noDigit (c := 41) (by simp)
    have hk3 := lead_to h3 hw2 h32
    have hm := ih hv h2 hl (.of_noDigit (noDigit_next hw2 hc hd)) (stuck_at h3 hw2 h32 (by decide))
    have := primary_closed hl h0 (lead_blanks h1 hw1 (he.lead h2)) hm (stuck_at h3 hw2 h32 (by decide))
      hk3.1 hk3.2
    have e1 : k + (40 :: (w1 ++ s ++ w2 ++ [41]) : List Ch).length =
        k + 1 + w1.length + s.length + w2.length + 1 := by
      simp only [List.length_cons, List.length_append, List.length_nil]; omega
    rw [e1]
    exact this
  | @operand L e s hL he ih =>
    intro v t k rest hv ht hl hn
    have := ih hv ht hl hn
    cases L with
    | primary => exact absurd rfl hL
    | product => exact fun j m o p i' Q hj hm h => chain_ends this hj hm h
    | sum => exact fun hst j m o p i' Q hj hm h => chain_ends (Level.operand this hst) hj hm h
  | @bin L op a b s u w1 w2 hop ha hw1 hw2 hb iha ihb =>
    intro v t k rest hv ht hl hn
    simp only [Arith.value] at hv
    cases hva : a.value with
    | none => rw [hva] at hv; cases hv
    | some va =>
    cases hvb : b.value with
    | none => rw [hva, hvb] at hv; cases hv
    | some vb =>
    rw [hva, hvb] at hv
    have hz := binop_result hv
    have ht' : t.drop k = s ++ (w1 ++ op.symbol :: (w2 ++ (u ++ rest))) := by rw [ht]; simp
    have h1 := drop_add ht'
    obtain ⟨hc, h32, hd⟩ := symbol_noDigit (c := op.symbol) (by cases op <;> simp [Op.symbol])
    obtain ⟨hk, hk'⟩ := lead_to h1 hw1 h32
    obtain ⟨_, h2, _⟩ := drop_cons (drop_add h1)
    have h3 := drop_add h2
    have hk2 := lead_blanks h2 hw2 (hb.lead h3)
    have e1 : k + (s ++ w1 ++ op.symbol :: (w2 ++ u)).length =
        k + s.length + w1.length + 1 + w2.length + u.length := by
      simp only [List.length_cons, List.length_append]; omega
    rw [e1]
    have hma := iha hva ht' hl (.of_noDigit (noDigit_next hw1 hc hd))
    have hmb := ihb hvb h3 hl (hn.tail hb.ne_nil)
    cases L with
    | primary => cases hop
    | product =>
      intro j m o p i' Q hj hm h
      refine hma j m o p i' Q hj hm fun m1 hm1 => ?_
      refine Tail.more hk hk' hc ?_ hk2 hmb hm1.has' (hm1.read _) hz fun m2 hm2 => h m2 (hm1.trans hm2)
      rw [valid_mul hc]
      revert hop
      cases op <;> simp [Prec.has, Op.symbol]
    | sum =>
      intro hst j m o p i' Q hj hm h
      have hadd : op.symbol = 43 ∨ op.symbol = 45 := by
        revert hop
        cases op <;> simp [Prec.has, Op.symbol]
      have hst' : Stuck [42, 47, 0] primaryP t (k + s.length) := by
        refine stuck_at h1 hw1 h32 ?_
        rw [Bool.eq_false_iff, ne_eq, valid_mul hc]
        omega
      refine hma hst' j m o p i' Q hj hm fun m1 hm1 => ?_
      refine Tail.more hk hk' hc ((valid_add hc).2 hadd) hk2 (Level.operand hmb hst) hm1.has' (hm1.read _) hz
        fun m2 hm2 => h m2 (hm1.trans hm2)

/-! ### No expression -/

/-- Nothing is found where the text goes on with `r`. -/
def FailsOn (t r : List Ch) : Prop :=
  ∀ k0, t.drop k0 = r → ∃ k, Lead t k0 k ∧ OperandFails primaryP t k

/-- Levels do not go on where the text goes on with `r`. -/
def StuckOn (t r : List Ch) : Prop :=
  ∀ x, t.drop x = r →
    Stuck [42, 47, 0] primaryP t x ∧ Stuck [43, 45, 0] (.skip blankP muldivP) t x

theorem failsOn_blank {r} (ih : FailsOn t r) : FailsOn t (32 :: r) := by
  intro k0 ht
  obtain ⟨h1, h2, _⟩ := drop_cons ht
  obtain ⟨k, h3, h4⟩ := ih _ h2
  exact ⟨k, .more h1 h3, h4⟩

theorem failsOn_other {r} (hl : ∀ c ∈ t, IsChar c) (h1 : ∀ c t', r = c :: t' → c ≠ 32 ∧ c ≠ 40)
    (h2 : NoNumber r) : FailsOn t r := by
  intro k0 ht
  have hc : ∀ c, t[k0]? = some c → c ≠ 32 ∧ c ≠ 40 := by
    intro c hc
    rw [drop_of_getElem? hc] at ht
    exact h1 c _ ht.symm
  refine ⟨k0, .here fun h => (hc _ h).1 rfl, fails_other hl ?_ fun h => (hc _ h).2 rfl⟩
  rw [ht]
  exact h2

theorem failsOn_hollow {r} (hl : ∀ c ∈ t, IsChar c) (ih : FailsOn t r) : FailsOn t (40 :: r) := by
  intro k0 ht
  obtain ⟨h1, h2, _⟩ := drop_cons ht
  obtain ⟨k, h3, h4⟩ := ih _ h2
  exact ⟨k0, .here (by rw [h1]; simp), fails_hollow hl h1 h3 h4⟩

theorem failsOn_unclosed {w e s rest} (hl : ∀ c ∈ t, IsChar c) (hw : Blanks w) (he : Written .sum e s)
    (hv : e.value.isSome) (hwh : Whole s rest) (ih : StuckOn t rest)
    (hc : ∀ w' t', rest = w' ++ 41 :: t' → ¬ Blanks w') : FailsOn t (40 :: (w ++ (s ++ rest))) := by
  intro k0 ht
  obtain ⟨h1, h2, _⟩ := drop_cons ht
  have h3 := drop_add h2
  have h4 := drop_add h3
  obtain ⟨v, hv⟩ := Option.isSome_iff_exists.1 hv
  obtain ⟨hs1, hs2⟩ := ih _ h4
  have hlev := he.means hv h3 hl hwh hs1
  obtain ⟨w', h5, h6, h7, h8⟩ := exists_lead t (k0 + 1 + w.length + s.length)
  refine ⟨k0, .here (by rw [h1]; simp), fails_unclosed hl h1 (lead_blanks h2 hw (he.lead h3)) hlev hs2 h8 ?_⟩
  intro h9
  rw [h4, drop_of_getElem? h9] at h5
  exact hc _ _ h5 h6

theorem stuckOn_of {r} (hl : ∀ c ∈ t, IsChar c)
    (h : ∀ (w : List Ch) (op : Op) (t' : List Ch), r = w ++ op.symbol :: t' → Blanks w → FailsOn t t') :
    StuckOn t r := by
  intro x ht
  obtain ⟨w, h1, h2, h3, h4⟩ := exists_lead t x
  have key : ∀ op : Op, t[x + w.length]? = some op.symbol →
      ∃ k2, Lead t (x + w.length + 1) k2 ∧ OperandFails primaryP t k2 := by
    intro op hop
    have h5 : r = w ++ op.symbol :: t.drop (x + w.length + 1) := by
      rw [← ht, h1, ← drop_of_getElem? hop]
    exact h w op _ h5 h2 _ rfl
  refine ⟨⟨_, h4, fun c hc hv => ?_⟩, ⟨_, h4, fun c hc hv => ?_⟩⟩
  · have hch := hl c (List.mem_of_getElem? hc)
    refine ⟨hch, ?_⟩
    rcases (valid_mul hch).1 hv with rfl | rfl
    · exact key .mul hc
    · exact key .div hc
  · have hch := hl c (List.mem_of_getElem? hc)
    refine ⟨hch, ?_⟩
    have : ∃ k2, Lead t (x + w.length + 1) k2 ∧ OperandFails primaryP t k2 := by
      rcases (valid_add hch).1 hv with rfl | rfl
      · exact key .add hc
      · exact key .sub hc
    obtain ⟨k2, h5, h6⟩ := this
    exact ⟨k2, h5, h6.level⟩

theorem NoExpr.fails {r} (h : NoExpr r) (hl : ∀ c ∈ t, IsChar c) : FailsOn t r :=
  NoExpr.rec (motive_1 := fun r _ => FailsOn t r) (motive_2 := fun r _ => StuckOn t r)
    (fun _ ih => failsOn_blank ih) (fun h1 h2 => failsOn_other hl h1 h2) (fun _ ih => failsOn_hollow hl ih)
    (fun hw he hv hwh _ hc ih => failsOn_unclosed hl hw he hv hwh ih hc)
    (fun _ ih => stuckOn_of hl ih) h

theorem NoOperation.stuck {r} (h : NoOperation r) (hl : ∀ c ∈ t, IsChar c) : StuckOn t r :=
  stuckOn_of hl fun w op t' h1 h2 => by
    cases h with
    | intro h => exact (h w op t' h1 h2).fails hl

end
end Abu
