import Verif.Proofs.CalculatorRun
import Verif.Proofs.Dies
/-
What the calculator does with expressions that may have no value.
-/
namespace Abu

/-- A value has been stored. -/
def SetsTo (m : Mem) (o : Nat) (p : List Nat) (v : Option Int) (m' : Mem) : Prop :=
  ∃ z, v = some z ∧ Sets m o p (.num z) m'

/-- As `Operand`, for operands that may have no value: then this is undefined. `U`: it may be undefined
anyway. -/
def Operand? (U : Prop) (Y : Prog) (t : List Ch) (k : Nat) (v : Option Int) (i' : Nat) : Prop :=
  ∀ j i m o p bnd, Lead t j k → Lead t i k → Has m o p →
    (∃ m', Ends calcEnv Y (.at o p .int) bnd t j i m .SUCCESS i' m' ∧ SetsTo m o p v m') ∨
    ((v = none ∨ U) ∧ Dies calcEnv Y (.at o p .int) bnd t j i m)

theorem Val.update_err {f : Val → Except Err Val} {e : Err} : ∀ {p : List Nat} {w a : Val},
    w.get p = .ok a → f a = .error e → w.update f p = .error e
  | [], w, a, h, hf => by cases h; exact hf
  | i :: p, .tup vs, a, h, hf => by
    simp only [Val.get] at h
    cases hi : vs[i]? with
    | none => rw [hi] at h; cases h
    | some v =>
      rw [hi] at h
      simp only [Val.update, hi, Val.update_err h hf]
  | _ :: _, .nil, _, h, _ => by cases h
  | _ :: _, .indet, _, h, _ => by cases h
  | _ :: _, .num _, _, h, _ => by cases h
  | _ :: _, .coll _, _, h, _ => by cases h
  | _ :: _, .obj _ _, _, h, _ => by cases h

theorem modify_err {m : Mem} {o p a e} {f : Val → Except Err Val} (hr : m.read (.at o p .nil) = .ok a)
    (hf : f a = .error e) : m.modify o p f = .error e := by
  simp only [Mem.read] at hr
  cases ho : m.objs[o]? with
  | none => rw [ho] at hr; cases hr
  | some w =>
    rw [ho] at hr
    simp only [Mem.modify, ho, Val.update_err hr hf]

theorem mulAdd_err {m m1 : Mem} {o p k x e} {c d : Int} (h : Sets m o p (.num x) m1)
    (hs : k.accum c d x = .error e) : m1.mulAdd c d (.at o p (.num k)) = .error e := by
  simp only [NumKind.accum] at hs
  cases h1 : k.store (x * c) with
  | error e' =>
    rw [h1] at hs
    cases hs
    have : m1.mul c (.at o p (.num k)) = .error e := modify_err (h.read .nil) (by simp only [h1])
    simp only [Mem.mulAdd, this]
  | ok z =>
    rw [h1] at hs
    obtain ⟨m2, h2, h3⟩ := mul_sets h h1
    simp only [Mem.mulAdd, h2]
    have hs : k.store (z + d) = .error e := hs
    exact modify_err (h3.read .nil) (by simp only [hs])

theorem opRun_digits_err {m : Mem} {o p k B e} : ∀ {ds : List Ch} {x : Int} {m1 : Mem}, Sets m o p (.num x) m1 →
    k.accums (B : Nat) (ds.map (digitValue B)) x = .error e →
    opRun (digitOps B (.at o p (.num k)) ds) m1 = .error e
  | [], x, m1, h, hs => by cases hs
  | c :: ds, x, m1, h, hs => by
    simp only [List.map_cons, NumKind.accums] at hs
    simp only [digitOps, List.map_cons, opRun]
    cases h1 : k.accum B (digitValue B c) x with
    | error e' =>
      rw [h1] at hs
      rw [show Store.op (MemOp.mulAdd B (digitValue B c) (.at o p (.num k))) m1 = .error e' from mulAdd_err h h1]
      cases hs
      rfl
    | ok z =>
      rw [h1] at hs
      obtain ⟨m2, h2, h3⟩ := mulAdd_sets h h1
      rw [show Store.op (MemOp.mulAdd B (digitValue B c) (.at o p (.num k))) m1 = .ok m2 from h2]
      exact opRun_digits_err h3 hs

section
variable {t : List Ch} {m : Mem} {o : Nat} {p : List Nat}

theorem Dies.blank {env dst bnd j i P k} (hk : Lead t i k) (h : Dies env P dst bnd t j k m) :
    Dies env (.skip blankP P) dst bnd t j i m := Dies.skip blank_stateless hk.skips h

/-- The result of an operation on operands that may have no value. -/
def Op.result? (op : Op) : Option Int → Option Int → Option Int
  | some x, some y => op.result x y
  | _, _ => none

theorem binop_none {op : Op} {x y : Int} (h : op.result x y = none) : binop op.symbol x y = .indet := by
  cases op <;> simp only [Op.result, fitsInt_iff] at h <;> split at h <;> cases h <;> rename_i hr
  · simp [Op.symbol, binop, intResult, hr]
  · simp [Op.symbol, binop, intResult, hr]
  · simp [Op.symbol, binop, intResult, hr]
  · by_cases h0 : y = 0
    · simp [Op.symbol, binop, h0]
    · have hr : ¬ (NumKind.signed 32).inRange (x.tdiv y) := fun h => hr ⟨h0, h⟩
      simp [Op.symbol, binop, intResult, h0, hr]

theorem act_binop? {m2 : Mem} {n : Nat} {op : Op} {l v : Int}
    (hn : m2.objs[n]? = some (.tup [.num op.symbol, .num v]))
    (hl : m2.read (.at o p .int) = .ok (.num l)) :
    (∃ z m3, op.result l v = some z ∧
      m2.act binopAct (.at n [] (.tup [.char, .int])) .nil (.at o p .int) = .ok m3 ∧ Sets m2 o p (.num z) m3) ∨
    (op.result l v = none ∧
      m2.act binopAct (.at n [] (.tup [.char, .int])) .nil (.at o p .int) = .error .ubUninit) := by
  cases h : op.result l v with
  | some z =>
    obtain ⟨m3, h1, h2⟩ := act_binop hn hl (binop_result h)
    exact .inl ⟨z, m3, rfl, h1, h2⟩
  | none =>
    have h1 : ({ m2 with log := m2.log ++ [⟨1, .tup [.num op.symbol, .num v]⟩] } : Mem).modify o p
        (fun old => old.overwrite .indet) = .error .ubUninit := modify_err (a := .num l) hl rfl
    have hr : m2.read (.at n [] (.tup [.char, .int])) = .ok (.tup [.num op.symbol, .num v]) := by
      simp only [Mem.read, hn, Val.get]
    exact .inr ⟨rfl, by simp only [Mem.act, hr, hl, binopAct, if_true, binop_none h, h1]⟩

/-- An operation and its right operand. -/
theorem item_ends? {ops Y} {op : Op} {l : Int} {v : Option Int} {j i k k2 i'} (hi : Lead t i k) (hc : t[k]? = some op.symbol)
    (hch : IsChar op.symbol) (hv : (setOfCString ops).isValid op.symbol = true) (hk2 : Lead t (k + 1) k2)
    (hY : Operand? U Y t k2 v i') (hm : Has m o p) (hl : m.read (.at o p .int) = .ok (.num l)) :
    (∃ m', Ends calcEnv (itemP ops Y) .nil (.at o p .int) t j i m .SUCCESS i' m' ∧
      SetsTo m o p (op.result? (some l) v) m') ∨
    ((op.result? (some l) v = none ∨ U) ∧ Dies calcEnv (itemP ops Y) .nil (.at o p .int) t j i m) := by
  -- the operator
  obtain ⟨m1, h1, w, w', e1, e2, e3, e4⟩ :=
    modify_sets (m := ⟨m.objs ++ [.tup [.num 0, .num 0]], m.log⟩) (o := m.objs.length) (p := [0])
      (a := .num 0) (b := .num op.symbol) (f := fun _ => .ok (.num op.symbol)) (by simp [Mem.read, Val.get]) rfl
  have ha : (⟨m.objs ++ [.tup [.num 0, .num 0]], m.log⟩ : Mem).assign (.at m.objs.length [0] .char)
      (.num op.symbol) = .ok m1 := by
    simp only [Mem.assign, Ty.char]
    rw [show (Ty.num (NumKind.signed 8)).convert (.num op.symbol) = .ok (.num op.symbol) from char_convert hch]
    exact h1
  have hw : w = .tup [.num 0, .num 0] := by simpa using e1.symm
  subst hw
  have hw' : w' = .tup [.num op.symbol, .num 0] := by simpa [Val.update] using e2.symm
  subst hw'
  have hg1 : Grows m m1 := fun o' ho' => by
    rw [e4 o' (by simp; omega) (by omega)]; exact grows_append o' ho'
  -- the operand
  rcases hY (k + 1) (k + 1) m1 m.objs.length [1] (.at o p .int) hk2 hk2 ⟨_, .num 0, e3, rfl⟩ with
    ⟨m2, h2, v, rfl, w, w', f1, f2, f3, f4⟩ | ⟨hn, h2⟩
  · rw [e3] at f1
    cases f1
    have hw' : w' = .tup [.num op.symbol, .num v] := by simpa [Val.update] using f2.symm
    subst hw'
    have hg2 : Grows m m2 := fun o' ho' => by
      rw [f4 o' (hg1.lt ho') (by omega)]; exact hg1 o' ho'
    -- the action
    have hl2 : m2.read (.at o p .int) = .ok (.num l) := by
      simp only [Mem.read, hg2 o hm.lt]; exact hl
    have hb : Ends calcEnv (.skip blankP (.clean (.seq [some 0, some 1]
        [.skip blankP (.char (setOfCString ops)), Y]))) (m.alloc binopAct.landing).1 (.at o p .int) t j k
        (m.alloc binopAct.landing).2 .SUCCESS i' m2 := by
      rw [binop_alloc]
      refine .blank hi.end_at (.clean (SeqEnds.ends ?_))
      refine .cons (d := .at m.objs.length [0] .char) rfl (.blank hi.end_at (.char hc hv ha)) ?_
      exact .last (d := .at m.objs.length [1] .int) rfl h2 (by simp)
    rcases act_binop? f3 hl2 with ⟨z, m3, hz, h3, h4⟩ | ⟨hz, h3⟩
    · exact .inl ⟨m3, .blank hi (.action (m1 := m2) hb (by rw [binop_alloc]; exact h3)), z, hz, hg2.sets hm.lt h4⟩
    · exact .inr ⟨.inl hz, .blank hi (.act (m1 := m2) hb (.inr rfl) (by rw [binop_alloc]; exact h3))⟩
  · refine .inr ⟨hn.imp (fun h => by rw [h]; rfl) id, .blank hi (.action ?_)⟩
    rw [binop_alloc]
    refine .blank hi.end_at (.clean (SeqDies.dies ?_))
    refine .cons (d := .at m.objs.length [0] .char) rfl (.blank hi.end_at (.char hc hv ha)) ?_
    exact .here (d := .at m.objs.length [1] .int) rfl h2

/-- As `Tail`; `u`: it may be undefined. -/
def Tail? (u : Prop) (ops : List Ch) (Y : Prog) (d : Ref) (t : List Ch) (x : Nat) (m : Mem) (i' : Nat)
    (Q : Mem → Prop) : Prop :=
  ∀ i0, (i0 = x ∨ Lead t x i0) → (∃ m', StarEnds calcEnv (itemP ops Y) .nil d t x i0 m i' m' ∧ Q m') ∨
    (u ∧ StarDies calcEnv (itemP ops Y) .nil d t x i0 m)

theorem Tail?.more {u : Prop} {ops Y} {op : Op} {l : Int} {v : Option Int} {x k k2 i' i'' Q} (hx : Lead t x k)
    (hc : t[k]? = some op.symbol) (hch : IsChar op.symbol) (hv : (setOfCString ops).isValid op.symbol = true)
    (hk2 : Lead t (k + 1) k2) (hY : Operand? U Y t k2 v i') (hu : op.result? (some l) v = none ∨ U → u) (hm : Has m o p)
    (hl : m.read (.at o p .int) = .ok (.num l))
    (h : ∀ m1, SetsTo m o p (op.result? (some l) v) m1 → Tail? u ops Y (.at o p .int) t i' m1 i'' Q) :
    Tail? u ops Y (.at o p .int) t x m i'' Q := by
  intro i0 hi0
  rcases item_ends? (j := x) (lead_from hx hi0) hc hch hv hk2 hY hm hl with ⟨m1, h1, h2⟩ | ⟨hn, h1⟩
  · rcases h m1 h2 i' (.inl rfl) with ⟨m2, h3, h4⟩ | ⟨h3, h4⟩
    · exact .inl ⟨m2, .more h1 h3, h4⟩
    · exact .inr ⟨h3, .more h1 h4⟩
  · exact .inr ⟨hu hn, .here h1⟩

/-- The whole level, from its first operand. -/
theorem chain_ends? {u : Prop} {ops Y v j k i' i'' Q} (hY : Operand? U Y t k v i') (hu : v = none ∨ U → u)
    (hj : Lead t j k) (hm : Has m o p)
    (h : ∀ m1, SetsTo m o p v m1 → Tail? u ops Y (.at o p .int) t i' m1 i'' Q) :
    (∃ m', Ends calcEnv (chainP ops Y) (.at o p .int) (.at o p .int) t j k m .SUCCESS i'' m' ∧ Q m') ∨
    (u ∧ Dies calcEnv (chainP ops Y) (.at o p .int) (.at o p .int) t j k m) := by
  rcases hY j k (m.alloc .int).2 m.objs.length [] (.at o p .int) hj hj.end_at alloc_has with
    ⟨m1, h1, v, rfl, h2⟩ | ⟨hn, h1⟩
  · have hg : Grows m m1 := (alloc_grows .int).fresh (Nat.le_refl _) h2
    have hn : m1.objs[m.objs.length]? = some (.num v) := by
      obtain ⟨w, w', _, e2, e3, _⟩ := h2
      cases e2
      exact e3
    obtain ⟨m2, h3, h4⟩ := act_assign hn (hm.grows hg)
    obtain ⟨w, _, _, _, hw⟩ := exists_lead t i'
    have h0 : Ends calcEnv (.skip blankP (.action assignAct Y)) .nil (.at o p .int) t j k m .SUCCESS i' m2 :=
      .blank hj.end_at (.action (m1 := m1) h1 h3)
    rcases h m2 ⟨v, rfl, hg.sets hm.lt h4⟩ _ (.inr hw) with ⟨m3, h5, h6⟩ | ⟨h5, h6⟩
    · refine .inl ⟨m3, SeqEnds.ends (.cons (d := .nil) rfl h0 ?_), h6⟩
      exact .last (d := .nil) rfl (.blank hw h5.ends) (by simp)
    · exact .inr ⟨h5, SeqDies.dies (.cons (d := .nil) rfl h0 (.here (d := .nil) rfl (.blank hw h6.dies)))⟩
  · exact .inr ⟨hu hn, SeqDies.dies (.here (d := .nil) rfl (.blank hj.end_at (.action h1)))⟩

/-- As `OperandFails`; `U`: it may be undefined. -/
def OperandFails? (U : Prop) (Y : Prog) (t : List Ch) (k : Nat) : Prop :=
  ∀ j i m o p bnd, Lead t j k → Lead t i k → Has m o p →
    (∃ i' m', Ends calcEnv Y (.at o p .int) bnd t j i m .FAILURE i' m' ∧ Others m o m') ∨
    (U ∧ Dies calcEnv Y (.at o p .int) bnd t j i m)

theorem item_fails? {U ops Y j i k} (hi : Lead t i k) {bnd : Ref}
    (h : ∀ c, t[k]? = some c → (setOfCString ops).isValid c = true →
      IsChar c ∧ ∃ k2, Lead t (k + 1) k2 ∧ OperandFails? U Y t k2) :
    (∃ m', Ends calcEnv (itemP ops Y) .nil bnd t j i m .FAILURE j m' ∧ Grows m m') ∨
    (U ∧ Dies calcEnv (itemP ops Y) .nil bnd t j i m) := by
  by_cases hc : ∃ c, t[k]? = some c ∧ (setOfCString ops).isValid c = true
  · obtain ⟨c, hc, hv⟩ := hc
    obtain ⟨hch, k2, hk2, hY⟩ := h c hc hv
    obtain ⟨m1, h1, w, w', e1, e2, e3, e4⟩ :=
      modify_sets (m := ⟨m.objs ++ [.tup [.num 0, .num 0]], m.log⟩) (o := m.objs.length) (p := [0])
        (a := .num 0) (b := .num c) (f := fun _ => .ok (.num c)) (by simp [Mem.read, Val.get]) rfl
    have ha : (⟨m.objs ++ [.tup [.num 0, .num 0]], m.log⟩ : Mem).assign (.at m.objs.length [0] .char) (.num c) =
        .ok m1 := by
      simp only [Mem.assign, Ty.char]
      rw [show (Ty.num (NumKind.signed 8)).convert (.num c) = .ok (.num c) from char_convert hch]
      exact h1
    have hw : w = .tup [.num 0, .num 0] := by simpa using e1.symm
    subst hw
    have hw' : w' = .tup [.num c, .num 0] := by simpa [Val.update] using e2.symm
    subst hw'
    have hg1 : Grows m m1 := fun o' ho' => by
      rw [e4 o' (by simp; omega) (by omega)]; exact grows_append o' ho'
    rcases hY (k + 1) (k + 1) m1 m.objs.length [1] bnd hk2 hk2 ⟨_, .num 0, e3, rfl⟩ with
      ⟨i', m2, h2, h3⟩ | ⟨hu, h2⟩
    · refine .inl ⟨m2, .blank hi (.action_fail ?_), hg1.others (Nat.le_refl _) h3⟩
      rw [binop_alloc]
      refine .blank hi.end_at (.clean_fail (i' := i') (SeqEnds.ends ?_))
      refine .cons (d := .at m.objs.length [0] .char) rfl (.blank hi.end_at (.char hc hv ha)) ?_
      exact .fail (d := .at m.objs.length [1] .int) rfl h2
    · refine .inr ⟨hu, .blank hi (.action ?_)⟩
      rw [binop_alloc]
      refine .blank hi.end_at (.clean (SeqDies.dies ?_))
      refine .cons (d := .at m.objs.length [0] .char) rfl (.blank hi.end_at (.char hc hv ha)) ?_
      exact .here (d := .at m.objs.length [1] .int) rfl h2
  · exact .inl (item_fails hi fun c h1 h2 => absurd ⟨c, h1, h2⟩ hc)

/-- As `Stuck`; `U`: finding that out may be undefined. -/
def Stuck? (U : Prop) (ops : List Ch) (Y : Prog) (t : List Ch) (x : Nat) : Prop :=
  ∃ k, Lead t x k ∧ ∀ c, t[k]? = some c → (setOfCString ops).isValid c = true →
    IsChar c ∧ ∃ k2, Lead t (k + 1) k2 ∧ OperandFails? U Y t k2

theorem OperandFails.weak {U Y k} (h : OperandFails Y t k) : OperandFails? U Y t k :=
  fun j i m o p bnd hj hi hm => .inl (h j i m o p bnd hj hi hm)

theorem Stuck.weak {U ops Y x} (h : Stuck ops Y t x) : Stuck? U ops Y t x := by
  obtain ⟨k, hk, h⟩ := h
  refine ⟨k, hk, fun c h1 h2 => ?_⟩
  obtain ⟨h3, k2, h4, h5⟩ := h c h1 h2
  exact ⟨h3, k2, h4, h5.weak⟩

theorem Stuck?.tail {U : Prop} {u : Prop} {ops Y x d Q} (h : Stuck? U ops Y t x) (hu : U → u)
    (hQ : ∀ m', Grows m m' → Q m') : Tail? u ops Y d t x m x Q := by
  obtain ⟨k, hk, h⟩ := h
  intro i0 hi0
  rcases item_fails? (m := m) (bnd := d) (j := x) (lead_from hk hi0) h with ⟨m', h1, h2⟩ | ⟨h1, h2⟩
  · exact .inl ⟨m', .stop h1, hQ _ h2⟩
  · exact .inr ⟨hu h1, .here h2⟩

/-- As `Level`. -/
def Level? (U : Prop) (ops : List Ch) (Y : Prog) (t : List Ch) (k : Nat) (v : Option Int) (x : Nat) : Prop :=
  ∀ j m o p i' Q (u : Prop), (v = none ∨ U → u) → Lead t j k → Has m o p →
    (∀ m1, SetsTo m o p v m1 → Tail? u ops Y (.at o p .int) t x m1 i' Q) →
    (∃ m', Ends calcEnv (chainP ops Y) (.at o p .int) (.at o p .int) t j k m .SUCCESS i' m' ∧ Q m') ∨
    (u ∧ Dies calcEnv (chainP ops Y) (.at o p .int) (.at o p .int) t j k m)

theorem Level?.ends {U ops Y k v x j bnd} (h : Level? U ops Y t k v x) (hx : Stuck? U ops Y t x) (hj : Lead t j k)
    (hm : Has m o p) : (∃ m', Ends calcEnv (levelP ops Y) (.at o p .int) bnd t j k m .SUCCESS x m' ∧
      SetsTo m o p v m') ∨ ((v = none ∨ U) ∧ Dies calcEnv (levelP ops Y) (.at o p .int) bnd t j k m) := by
  rcases h j m o p x (SetsTo m o p v) (v = none ∨ U) id hj hm fun m1 h1 =>
    hx.tail .inr fun m' h2 => h1.imp fun z h => ⟨h.1, h.2.grows h2⟩ with ⟨m', h1, h2⟩ | ⟨h1, h2⟩
  · exact .inl ⟨m', .bindDst (.blank hj.end_at h1), h2⟩
  · exact .inr ⟨h1, .bindDst (.blank hj.end_at h2)⟩

theorem Level?.operand {U ops Y k v x} (h : Level? U ops Y t k v x) (hx : Stuck? U ops Y t x) :
    Operand? U (.skip blankP (levelP ops Y)) t k v x := by
  intro j i m o p bnd hj hi hm
  rcases h.ends (bnd := bnd) hx hj hm with ⟨m', h1, h2⟩ | ⟨h1, h2⟩
  · exact .inl ⟨m', .blank hi h1, h2⟩
  · exact .inr ⟨h1, .blank hi h2⟩

theorem level_fails? {U ops Y k bnd j} (hY : OperandFails? U Y t k) (hj : Lead t j k) :
    (∃ i' m', Ends calcEnv (levelP ops Y) (.at o p .int) bnd t j k m .FAILURE i' m' ∧ Grows m m') ∨
    (U ∧ Dies calcEnv (levelP ops Y) (.at o p .int) bnd t j k m) := by
  rcases hY j k (m.alloc .int).2 m.objs.length [] (.at o p .int) hj hj.end_at alloc_has with
    ⟨i', m1, h1, h2⟩ | ⟨hu, h1⟩
  · refine .inl ⟨i', m1, .bindDst (.blank hj.end_at (SeqEnds.ends (.fail (d := .nil) rfl
      (.blank hj.end_at (.action_fail h1))))), ?_⟩
    exact (alloc_grows .int).others (Nat.le_refl _) h2
  · exact .inr ⟨hu, .bindDst (.blank hj.end_at (SeqDies.dies (.here (d := .nil) rfl
      (.blank hj.end_at (.action h1)))))⟩

theorem OperandFails?.level {U ops Y k} (h : OperandFails? U Y t k) :
    OperandFails? U (.skip blankP (levelP ops Y)) t k := by
  intro j i m o p bnd hj hi hm
  rcases level_fails? (ops := ops) (m := m) (o := o) (p := p) (bnd := bnd) h hj with ⟨i', m', h1, h2⟩ | ⟨hu, h1⟩
  · exact .inl ⟨i', m', .blank hi h1, fun o' ho' _ => h2 o' ho'⟩
  · exact .inr ⟨hu, .blank hi h1⟩

/-! ### Primaries -/

/-- A number that is too big. -/
theorem Dies.int {env bnd j k sg neg ds rs rest} (hs : Sign sg neg) (hd : DigitString 10 ds rs) (hne : ds ≠ [])
    (hv : ¬ fitsInt (positional 10 rs : Int) = true) (ht : t.drop k = sg ++ ds ++ rest)
    (hn : NoDigitNext 10 rest) (hm : Has m o p) :
    Dies env (.int 10 1 0) (.at o p .int) bnd t j k m := by
  have hrun : LongestRun 10 0 ds rs rest := ⟨hd, fun h => absurd rfl h, .inr hn⟩
  have hfst : ∀ c l', ds ++ rest = c :: l' → c ≠ 43 ∧ c ≠ 45 := by
    intro c l' h
    cases hd with
    | nil => exact absurd rfl hne
    | @cons c' r ds rs hr hc _ =>
      rw [List.cons_append, List.cons.injEq] at h
      obtain ⟨rfl, _⟩ := h
      rw [isDigitSymbol_iff _ _ (by omega)] at hc
      split at hc <;> omega
  rw [List.append_assoc] at ht
  obtain ⟨hsl, hng⟩ := hs.spec (l := ds ++ rest) fun _ => hfst
  obtain ⟨m1, h0, h1⟩ := zero_sets (k := .signed 32) hm
  have hbig : (2 : Int) ^ (32 - 1) ≤ (positional 10 rs : Int) := by
    simp only [fitsInt, Bool.and_eq_true, decide_eq_true_eq] at hv
    omega
  have hacc : (NumKind.signed 32).accums (10 : Nat) (ds.map (digitValue 10)) 0 = .error .ubOverflow := by
    rw [hd.values (by decide)]
    have := accums_overflow (w := 32) (B := 10) (by decide) rs 0 (by decide) (by rw [posFrom_zero]; omega)
    exact this
  have h2 : opRun (digitOps 10 (.at o p (.num (.signed 32))) ds) m1 = .error .ubOverflow :=
    opRun_digits_err h1 hacc
  refine ⟨.int 0 true false, m1, fun call S => ?_, fun S => ?_⟩
  · simp only [mk]
    rw [exec_mem]
    rw [show Store.op (MemOp.zero (.at o p Ty.int)) (cw t j S m).mem = .ok m1 from h0]
    rfl
  · obtain ⟨f, st', hf⟩ := run_int (env := env) (S := S) (t := t) (i := k) 10 1 0
      (.at o p .int) bnd m1
    rw [ht, hsl, drop_add ht, hng, hrun.digitRun (by decide) (by decide), List.take_left, opRun_append] at hf
    rw [show Ty.int = .num (.signed 32) from rfl] at hf
    rw [h2] at hf
    exact ⟨f, .ubOverflow, .inl rfl, hf⟩

theorem primary_num? {U sg neg ds rs rest k} (hs : Sign sg neg) (hd : DigitString 10 ds rs) (hne : ds ≠ [])
    (ht : t.drop k = sg ++ ds ++ rest) (hn : NoDigitNext 10 rest) :
    Operand? U primaryP t k (Arith.num (withSign neg (positional 10 rs))).value (k + (sg ++ ds).length) := by
  intro j i m o p bnd hj hi hm
  have hab : ((withSign neg (positional 10 rs)).natAbs : Int) = positional 10 rs := by
    cases neg <;> simp [withSign]
  simp only [Arith.value, hab]
  split
  · rename_i hv
    exact .inl ((primary_num hs hd hne hv ht hn j i m o p bnd hj hi hm).imp fun m' h => ⟨h.1, _, rfl, h.2⟩)
  · rename_i hv
    have h1 := Dies.int (env := calcEnv) (bnd := bnd) (j := j) hs hd hne hv ht hn hm
    exact .inr ⟨.inl rfl, .blank hi (AltDies.dies (.here (.blank hi.end_at (.clean h1))))⟩

theorem recur_dies {bnd j k k2} {d : Ref} (hk : Lead t k k2) (h : Dies calcEnv addsubP d bnd t k2 k2 m) :
    Dies calcEnv (.skip blankP (.recur 0 blankP)) d bnd t j k m :=
  .blank hk (.recur (q := calcAddsub) rfl (by rw [elab_addsub]; exact h))

/-- A parenthesised expression. -/
theorem primary_closed? {U k k2 k3 v x} (hl : ∀ c ∈ t, IsChar c) (h0 : t[k]? = some 40)
    (hk2 : Lead t (k + 1) k2) (h : Level? U [43, 45, 0] (.skip blankP muldivP) t k2 v x)
    (hx : Stuck? U [43, 45, 0] (.skip blankP muldivP) t x) (hk3 : Lead t x k3) (h1 : t[k3]? = some 41) :
    Operand? U primaryP t k v (k3 + 1) := by
  intro j i m o p bnd hj hi hm
  have hn : NoNumber (t.drop k) := by
    rw [drop_of_getElem? h0]
    exact noNumber_open
  obtain ⟨i1, m1, h4, h5⟩ := Ends.int_fail (env := calcEnv) (bnd := bnd) (j := j) hl hn hm
  rcases h.ends (bnd := bnd) hx hk2.end_at h5.has' with ⟨m', h2, h3⟩ | ⟨h2, h3⟩
  · refine .inl ⟨m', .blank hi (AltEnds.ends (.cons (.blank hi.end_at (.clean_fail h4)) (.here (.blank hj ?_)))),
      h3.imp fun z h => ⟨h.1, h5.trans h.2⟩⟩
    exact .clean (SeqEnds.ends (.cons (d := .nil) rfl (.lit hj.end_at h0) (.cons (d := .at o p .int) rfl
      (recur_ends hk2 h2) (.last (d := .nil) rfl (.lit hk3 h1) (by simp)))))
  · refine .inr ⟨h2, .blank hi (AltDies.dies (.cons (.blank hi.end_at (.clean_fail h4)) (.here (.blank hj ?_))))⟩
    exact .clean (SeqDies.dies (.cons (d := .nil) rfl (.lit hj.end_at h0) (.here (d := .at o p .int) rfl
      (recur_dies hk2 h3))))

end

/-- What each kind of text does. -/
def Means? (U : Prop) (t : List Ch) (k : Nat) (v : Option Int) (x : Nat) : Prec → Prop
  | .primary => Operand? U primaryP t k v x
  | .product => Level? U [42, 47, 0] primaryP t k v x
  | .sum => Stuck? U [42, 47, 0] primaryP t x → Level? U [43, 45, 0] (.skip blankP muldivP) t k v x

theorem Written.means? {U L e s} (h : Written L e s) : ∀ {t k rest},
    t.drop k = s ++ rest → (∀ c ∈ t, IsChar c) → Whole s rest → Means? U t k e.value (k + s.length) L := by
  induction h with
  | @num sg neg ds rs hs hd hne =>
    intro t k rest ht hl hn
    exact primary_num? hs hd hne ht (whole_digits hd hne hn)
  | @paren e s w1 w2 hw1 he hw2 ih =>
    intro t k rest ht hl hn
    have ht' : t.drop k = 40 :: (w1 ++ (s ++ (w2 ++ 41 :: rest))) := by rw [ht]; simp
    obtain ⟨h0, h1, _⟩ := drop_cons ht'
    have h2 := drop_add h1
    have h3 := drop_add h2
    obtain ⟨hc, h32, hd⟩ := symbol_noDigit (c := 41) (by simp)
    have hk3 := lead_to h3 hw2 h32
    have hm := ih h2 hl (.of_noDigit (noDigit_next hw2 hc hd)) (stuck_at h3 hw2 h32 (by decide)).weak
    have := primary_closed? hl h0 (lead_blanks h1 hw1 (he.lead h2)) hm (stuck_at h3 hw2 h32 (by decide)).weak
      hk3.1 hk3.2
    have e1 : k + (40 :: (w1 ++ s ++ w2 ++ [41]) : List Ch).length =
        k + 1 + w1.length + s.length + w2.length + 1 := by
      simp only [List.length_cons, List.length_append, List.length_nil]; omega
    rw [e1]
    exact this
  | @operand L e s hL he ih =>
    intro t k rest ht hl hn
    have := ih ht hl hn
    cases L with
    | primary => exact absurd rfl hL
    | product => exact fun j m o p i' Q u hu hj hm h => chain_ends? this hu hj hm h
    | sum => exact fun hst j m o p i' Q u hu hj hm h => chain_ends? (Level?.operand this hst) hu hj hm h
  | @bin L op a b s u w1 w2 hop ha hw1 hw2 hb iha ihb =>
    intro t k rest ht hl hn
    have hval : (Arith.bin op a b).value = op.result? a.value b.value := by
      simp only [Arith.value, Op.result?]
      cases a.value <;> cases b.value <;> rfl
    rw [hval]
    have hna : a.value = none ∨ U → op.result? a.value b.value = none ∨ U :=
      fun h => h.imp (fun h => by rw [h]; rfl) id
    have ht' : t.drop k = s ++ (w1 ++ op.symbol :: (w2 ++ (u ++ rest))) := by rw [ht]; simp
    have h1 := drop_add ht'
    obtain ⟨hc, h32, hd⟩ := symbol_noDigit (c := op.symbol) (by cases op <;> simp [Op.symbol])
    obtain ⟨hk, hk'⟩ := lead_to h1 hw1 h32
    obtain ⟨_, h2, _⟩ := drop_cons (drop_add h1)
    have h3 := drop_add h2
    have hk2 := lead_blanks h2 hw2 (hb.lead h3)
    have e1 : k + (s ++ w1 ++ op.symbol :: (w2 ++ u)).length =
        k + s.length + w1.length + 1 + w2.length + u.length := by
      simp only [List.length_cons, List.length_append]; omega
    rw [e1]
    have hma := iha ht' hl (.of_noDigit (noDigit_next hw1 hc hd))
    have hmb := ihb h3 hl (hn.tail hb.ne_nil)
    cases L with
    | primary => cases hop
    | product =>
      intro j m o p i' Q u hu hj hm h
      refine hma j m o p i' Q u (fun h => hu (hna h)) hj hm fun m1 hm1 => ?_
      obtain ⟨l, hl, hm1⟩ := hm1
      rw [hl] at hu h
      refine Tail?.more hk hk' hc ?_ hk2 hmb hu hm1.has' (hm1.read _)
        fun m2 hm2 => h m2 (hm2.imp fun z h => ⟨h.1, hm1.trans h.2⟩)
      rw [valid_mul hc]
      revert hop
      cases op <;> simp [Prec.has, Op.symbol]
    | sum =>
      intro hst j m o p i' Q u hu hj hm h
      have hadd : op.symbol = 43 ∨ op.symbol = 45 := by
        revert hop
        cases op <;> simp [Prec.has, Op.symbol]
      have hst' : Stuck? U [42, 47, 0] primaryP t (k + s.length) := by
        refine (stuck_at h1 hw1 h32 ?_).weak
        rw [Bool.eq_false_iff, ne_eq, valid_mul hc]
        omega
      refine hma hst' j m o p i' Q u (fun h => hu (hna h)) hj hm fun m1 hm1 => ?_
      obtain ⟨l, hl, hm1⟩ := hm1
      rw [hl] at hu h
      exact Tail?.more hk hk' hc ((valid_add hc).2 hadd) hk2 (Level?.operand hmb hst) hu
        hm1.has' (hm1.read _) fun m2 hm2 => h m2 (hm2.imp fun z h => ⟨h.1, hm1.trans h.2⟩)

end Abu
