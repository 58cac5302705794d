import Verif.Proofs.Hosts
import Verif.Spec.Objects
/-
Several parser objects: what each of them does is what it does in a memory that has only its own
destination.
-/
namespace Abu

/-! ### Uses -/

theorem usesOf_append (i : Nat) (a b : List UOp) : usesOf i (a ++ b) = usesOf i a ++ usesOf i b := by
  induction a with
  | nil => rfl
  | cons u a ih =>
    cases u with
    | make j => simpa [usesOf] using ih
    | use j op =>
      by_cases h : j = i
      · simp [usesOf, h, ih]
      · simp [usesOf, h, ih]

theorem usesOf_same (i : Nat) (op : SOp) : usesOf i [.use i op] = [op] := by simp [usesOf]

theorem usesOf_other {i j : Nat} (h : j ≠ i) (op : SOp) : usesOf j [.use i op] = [] := by
  simp [usesOf, Ne.symm h]

theorem usesOf_map (i : Nat) (us : List SOp) : usesOf i (us.map (.use i)) = us := by
  induction us with
  | nil => rfl
  | cons u us ih => simp [usesOf, ih]

theorem setObj_same (θ : Nat → ObjState) (i : Nat) (s : ObjState) : setObj θ i s i = s := by
  simp [setObj]

theorem setObj_other {θ : Nat → ObjState} {i j : Nat} (h : j ≠ i) (s : ObjState) :
    setObj θ i s j = θ j := by simp [setObj, h]

/-! ### The memory of one object -/

/-- The destination as the only object of a memory. -/
def smallDst : Ref → Ref
  | .nil => .nil
  | .at _ _ t => .at 0 [] t

/-- The memory that only has the destination. -/
def smallMem (m : Mem) : Ref → Mem
  | .nil => ⟨[], m.log⟩
  | .at o q _ => match m.look o q with
    | .ok v => ⟨[v], m.log⟩
    | .error _ => ⟨[], m.log⟩

/-- Where the destination is. -/
def smallPlace : Ref → Place
  | .nil => fun _ => (0, [])
  | .at o q _ => fun _ => (o, q)

theorem smallDst_move (d : Ref) : (smallDst d).move (smallPlace d) = d := by
  cases d with
  | nil => rfl
  | «at» o q t => simp [smallDst, smallPlace, Ref.move]

theorem smallDst_below {d : Ref} {m : Mem} (h : d.Exists m) :
    (smallDst d).Below (smallMem m d).objs.length := by
  cases d with
  | nil => trivial
  | «at» o q t =>
    obtain ⟨v, hv⟩ := h
    simp [smallDst, smallMem, hv, Ref.Below]

theorem small_hosts (S : Nat → Bool) {d : Ref} {m : Mem} (h : d.Exists m) :
    Hosts S (smallPlace d) (smallMem m d) m := by
  cases d with
  | nil => exact ⟨fun o v hv => by simp [smallMem] at hv, fun o o' ho => by simp [smallMem] at ho, rfl⟩
  | «at» o q t =>
    obtain ⟨v, hv⟩ := h
    refine ⟨fun x w hw => ?_, fun x x' hx hx' hne => ?_, ?_⟩
    · simp only [smallMem, hv] at hw
      cases x with
      | zero => simp at hw; subst hw; exact hv
      | succ x => simp at hw
    · simp [smallMem, hv] at hx hx'; omega
    · simp [smallMem, hv]

theorem small_separate {d d2 : Ref} {m : Mem} (h : d.Exists m) (h2 : d2.Exists m) (ha : d.Apart d2) :
    Separate (smallPlace d) (smallMem m d) (smallPlace d2) (smallMem m d2) := by
  intro x x' hx hx'
  cases d with
  | nil => simp [smallMem] at hx
  | «at» o q t =>
    cases d2 with
    | nil => simp [smallMem] at hx'
    | «at» o2 q2 t2 => exact (ha : o2 ≠ o ∨ Diverge q2 q).imp Ne.symm Diverge.symm

/-! ### The invariant -/

/-- What the object does from here on, and what it does in its own memory `m`, which started as
`s0`, after the operations `past`. -/
def Holds (D : Decl) (s0 : Mem) (past : List SOp) (φ : Place) (m : Mem) : ObjState → Prop
  | .absent => past = [] ∧ m = s0
  | .live st' ds => ∃ st, st' = PState.move φ st ∧ st.In (Ref.Below m.objs.length) ∧
      (∃ c, ContainerSeq.Rel ds c) ∧
      ∀ more v, MakeParserRun D.env D.pat (smallDst D.dst) s0 (past ++ more) v ↔
        Session ContainerSeq.addBuffer D.env (topParser D.pat) (smallDst D.dst) st ⟨ds, m⟩ more v
  | .done r rest => ∀ more v, MakeParserRun D.env D.pat (smallDst D.dst) s0 (past ++ more) v ↔
      v = .ok (r, m, rest ++ opsText more)

theorem Holds.reads {ds : ContainerSeq} (h : ∃ c, ContainerSeq.Rel ds c) : ∃ t, Reads ds t := by
  obtain ⟨c, h⟩ := h
  exact ⟨_, ContainerSeq.dsSim.reads h c.reads_drop⟩

theorem Holds.verdict {D s0 past φ m s r rest} (h : Holds D s0 past φ m s) (hs : s.Shows r rest) (v) :
    MakeParserRun D.env D.pat (smallDst D.dst) s0 past v ↔ v = .ok (r, m, rest) := by
  cases s with
  | absent => exact hs.elim
  | live st' ds =>
    obtain ⟨rfl, hr⟩ := hs
    obtain ⟨st, _, _, _, h⟩ := h
    have := h [] v
    rw [List.append_nil] at this
    rw [this]
    constructor
    · intro hh
      cases hh with
      | nil h2 => rw [hr.unique h2]
    · rintro rfl
      exact .nil (w := ⟨ds, m⟩) hr
  | done r' rest' =>
    obtain ⟨rfl, rfl⟩ := hs
    have := h [] v
    simpa [opsText] using this

theorem Holds.shows {D s0 past φ m s} (h : Holds D s0 past φ m s) (hs : s ≠ .absent) :
    ∃ r rest, s.Shows r rest := by
  cases s with
  | absent => exact (hs rfl).elim
  | live st' ds =>
    obtain ⟨_, _, _, hr, _⟩ := h
    obtain ⟨t, ht⟩ := Holds.reads hr
    exact ⟨_, t, rfl, ht⟩
  | done r rest => exact ⟨_, _, rfl, rfl⟩

/-- What the program knows about its objects: each has a memory of its own inside the memory of
the program. -/
structure Inv (D : Nat → Decl) (own : Nat → Nat → Bool) (S0 : Nat → Mem) (θ : Nat → ObjState) (M : Mem)
    (pre : List UOp) (φ : Nat → Place) (μ : Nat → Mem) : Prop where
  host : ∀ i, Hosts (own i) (φ i) (μ i) M
  sep : ∀ i j, i ≠ j → Separate (φ i) (μ i) (φ j) (μ j)
  dst : ∀ i, (smallDst (D i).dst).move (φ i) = (D i).dst
  below : ∀ i, (smallDst (D i).dst).Below (μ i).objs.length
  holds : ∀ i, Holds (D i) (S0 i) (usesOf i pre) (φ i) (μ i) (θ i)

mutual
theorem Pat.Acts.imp {A B : Act → Prop} (h : ∀ a, A a → B a) : ∀ {p : Pat}, p.Acts A → p.Acts B
  | .seq ps, hp => Pat.ActsAll.imp h (ps := ps) hp
  | .alt ps, hp => Pat.ActsAll.imp h (ps := ps) hp
  | .rep _ _ p, hp => Pat.Acts.imp h (p := p) hp
  | .opt p, hp => Pat.Acts.imp h (p := p) hp
  | .not p, hp => Pat.Acts.imp h (p := p) hp
  | .discard p, hp => Pat.Acts.imp h (p := p) hp
  | .lexeme p, hp => Pat.Acts.imp h (p := p) hp
  | .bindDst p, hp => Pat.Acts.imp h (p := p) hp
  | .construct _ p, hp => Pat.Acts.imp h (p := p) hp
  | .action _ p, hp => ⟨h _ hp.1, Pat.Acts.imp h (p := p) hp.2⟩
  | .except p q, hp => ⟨Pat.Acts.imp h (p := p) hp.1, Pat.Acts.imp h (p := q) hp.2⟩
  | .list p q, hp => ⟨Pat.Acts.imp h (p := p) hp.1, Pat.Acts.imp h (p := q) hp.2⟩
  | .withSkipper p q, hp => ⟨Pat.Acts.imp h (p := p) hp.1, Pat.Acts.imp h (p := q) hp.2⟩
  | .char .., _ => trivial
  | .strLit .., _ => trivial
  | .charSymbol .., _ => trivial
  | .uint .., _ => trivial
  | .int .., _ => trivial
  | .symbol .., _ => trivial
  | .eoi, _ => trivial
  | .fail, _ => trivial
  | .pass, _ => trivial
  | .recur .., _ => trivial
theorem Pat.ActsAll.imp {A B : Act → Prop} (h : ∀ a, A a → B a) :
    ∀ {ps : List Pat}, Pat.ActsAll A ps → Pat.ActsAll B ps
  | [], _ => trivial
  | p :: ps, hp => ⟨Pat.Acts.imp h (p := p) hp.1, Pat.ActsAll.imp h (ps := ps) hp.2⟩
end

theorem Decl.Acts.imp {A B : Act → Prop} (h : ∀ a, A a → B a) {D : Decl} (hD : D.Acts A) : D.Acts B :=
  ⟨hD.1.imp h, fun id q hq => (hD.2 id q hq).imp h⟩

theorem Owned.heeds {D own} (h : Owned D own) (i : Nat) : (D i).Acts (Act.Heeds (own i)) :=
  (h i).imp fun _ h => h.1

theorem Owned.foreign {D own} (h : Owned D own) {i j : Nat} (hj : j ≠ i) :
    (D i).Acts (fun a => own j a.id = false) := (h i).imp fun _ h => h.2 j hj

section
variable {D : Nat → Decl} {own : Nat → Nat → Bool} {S0 : Nat → Mem} {θ : Nat → ObjState} {M : Mem}
  {pre : List UOp} {φ : Nat → Place} {μ : Nat → Mem}

/-- The start of a program. -/
theorem Inv.start {m0 : Mem} (hex : ∀ i, (D i).dst.Exists m0)
    (hap : ∀ i j, i ≠ j → (D i).dst.Apart (D j).dst) :
    Inv D own (fun i => smallMem m0 (D i).dst) noObjects m0 [] (fun i => smallPlace (D i).dst)
      (fun i => smallMem m0 (D i).dst) where
  host i := small_hosts _ (hex i)
  sep i j hij := small_separate (hex i) (hex j) (hap i j hij)
  dst i := smallDst_move _
  below i := smallDst_below (hex i)
  holds i := ⟨rfl, rfl⟩

/-- Object `i` has made a step. -/
theorem Inv.set (h : Inv D own S0 θ M pre φ μ) (u : UOp) (i : Nat) (hu : ∀ j, j ≠ i → usesOf j [u] = [])
    {s : ObjState} {φ1 : Place} {m1 M1 : Mem} (hφ : ∀ o, o < (μ i).objs.length → φ1 o = φ i o)
    (hle : (μ i).objs.length ≤ m1.objs.length) (host1 : Hosts (own i) φ1 m1 M1)
    (others : ∀ j, j ≠ i → Hosts (own j) (φ j) (μ j) M1)
    (sep1 : ∀ j, j ≠ i → Separate φ1 m1 (φ j) (μ j))
    (holds1 : Holds (D i) (S0 i) (usesOf i pre ++ usesOf i [u]) φ1 m1 s) :
    ∃ φ' μ', Inv D own S0 (setObj θ i s) M1 (pre ++ [u]) φ' μ' := by
  refine ⟨fun j => if j = i then φ1 else φ j, fun j => if j = i then m1 else μ j, ?_, ?_, ?_, ?_, ?_⟩
  · intro j
    by_cases hj : j = i
    · subst hj; simpa using host1
    · simpa [hj] using others j hj
  · intro j k hjk
    by_cases hj : j = i
    · have hk : k ≠ i := fun hk => hjk (hj.trans hk.symm)
      simp only [hj, hk, if_true, if_false]
      exact sep1 k hk
    · by_cases hk : k = i
      · simp only [hj, hk, if_true, if_false]
        exact (sep1 j hj).symm
      · simp only [hj, hk, if_false]
        exact h.sep j k hjk
  · intro j
    by_cases hj : j = i
    · subst hj
      simp only [if_true]
      rw [Ref.move_congr hφ (h.below j)]
      exact h.dst j
    · simpa [hj] using h.dst j
  · intro j
    by_cases hj : j = i
    · subst hj; simpa using (h.below j).mono hle
    · simpa [hj] using h.below j
  · intro j
    rw [usesOf_append]
    by_cases hj : j = i
    · subst hj; simpa [setObj_same] using holds1
    · rw [setObj_other hj, hu j hj]
      simpa [hj] using h.holds j

/-- Object `i` has made a step that leaves the memory. -/
theorem Inv.keep (h : Inv D own S0 θ M pre φ μ) (u : UOp) (i : Nat) (hu : ∀ j, j ≠ i → usesOf j [u] = [])
    {s : ObjState} (holds1 : Holds (D i) (S0 i) (usesOf i pre ++ usesOf i [u]) (φ i) (μ i) s) :
    ∃ φ' μ', Inv D own S0 (setObj θ i s) M (pre ++ [u]) φ' μ' :=
  h.set u i hu (fun _ _ => rfl) (Nat.le_refl _) (h.host i) (fun j _ => h.host j)
    (fun j hj => h.sep i j (Ne.symm hj)) holds1

/-! ### Creation -/

theorem Inv.construct (h : Inv D own S0 θ M pre φ μ) (i : Nat) :
    HostOut (own i) ((φ i).next (μ i) M) (PState.move ((φ i).next (μ i) M))
      (Abu.construct (topParser (D i).pat) (smallDst (D i).dst) (smallDst (D i).dst)
        ⟨ContainerSeq.make, μ i⟩)
      (Abu.construct (topParser (D i).pat) (D i).dst (D i).dst ⟨ContainerSeq.make, M⟩) := by
  have := (h.host i).construct (topParser (D i).pat) (h.below i) ContainerSeq.make
  rwa [h.dst i] at this

theorem Inv.makeBad (h : Inv D own S0 θ M pre φ μ) {i : Nat} (hi : θ i = .absent) {e}
    (hc : Abu.construct (topParser (D i).pat) (D i).dst (D i).dst
        (⟨ContainerSeq.make, M⟩ : World ContainerSeq Mem) = .error e) (us) :
    MakeParserRun (D i).env (D i).pat (smallDst (D i).dst) (S0 i) us (.error e) := by
  have hh := h.holds i
  rw [hi] at hh
  obtain ⟨_, hm⟩ := hh
  have := h.construct i
  rw [hc] at this
  generalize hx : Abu.construct (topParser (D i).pat) (smallDst (D i).dst) (smallDst (D i).dst)
    ⟨ContainerSeq.make, μ i⟩ = x at this
  cases this
  rw [hm] at hx
  exact .construct hx

theorem construct_rel {p : Prog} {d b : Ref} {m : Mem} {st : PState} {ds : ContainerSeq} {m1 : Mem}
    (h : Abu.construct p d b (⟨ContainerSeq.make, m⟩ : World ContainerSeq Mem) = .ok (st, ⟨ds, m1⟩)) :
    ∃ c, ContainerSeq.Rel ds c := by
  have := construct_sim ContainerSeq.dsSim p d b m
    (⟨_, ContainerSeq.sim_make⟩ : ContainerSeq.Rel ContainerSeq.make Cursor.start)
  rw [h] at this
  generalize Abu.construct p d b (⟨Cursor.start, m⟩ : World Cursor Mem) = x at this
  cases this with
  | ok _ hr => exact ⟨_, hr⟩

theorem evals_rel {env : Env} {p : Prog} {d b : Ref} {st : PState} {ds : ContainerSeq} {m : Mem} {y ds1 m1}
    (h : Evals env p d b st ⟨ds, m⟩ (.ok (y, ⟨ds1, m1⟩))) (hr : ∃ c, ContainerSeq.Rel ds c) :
    ∃ c, ContainerSeq.Rel ds1 c := by
  obtain ⟨c, hr⟩ := hr
  obtain ⟨o', _, hrel⟩ := Evals.sim ContainerSeq.dsSim h hr
  cases hrel with
  | ok _ hr => exact ⟨_, hr⟩

theorem Inv.make (h : Inv D own S0 θ M pre φ μ) {i : Nat} (hi : θ i = .absent) {st ds M1}
    (hc : Abu.construct (topParser (D i).pat) (D i).dst (D i).dst
        (⟨ContainerSeq.make, M⟩ : World ContainerSeq Mem) = .ok (st, ⟨ds, M1⟩)) :
    ∃ φ' μ', Inv D own S0 (setObj θ i (.live st ds)) M1 (pre ++ [.make i]) φ' μ' := by
  have hh := h.holds i
  rw [hi] at hh
  obtain ⟨hp, hm⟩ := hh
  have hout := h.construct i
  rw [hc] at hout
  generalize hx : Abu.construct (topParser (D i).pat) (smallDst (D i).dst) (smallDst (D i).dst)
    ⟨ContainerSeq.make, μ i⟩ = x at hout
  cases hout with
  | @ok st0 _ m1 _ host1 =>
    have hb := construct_below (fun n hn => .inl ((h.below i).mono hn)) hx
    refine h.set (.make i) i (fun _ _ => rfl) (fun o ho => Place.next_eq ho) hb.2 host1 ?_ ?_ ?_
    · intro j hj
      exact (h.host j).other_construct (h.sep i j (Ne.symm hj)) (h.below i) (by rw [h.dst i]; exact hc)
    · intro j hj
      exact (h.sep i j (Ne.symm hj)).next (h.host j) _
    · refine ⟨st0, rfl, hb.1, construct_rel hx, fun more v => ?_⟩
      rw [hp]
      simp only [usesOf, List.nil_append]
      rw [hm] at hx
      constructor
      · intro hr
        cases hr with
        | construct h2 => rw [hx] at h2; cases h2
        | run h2 hs => rw [hx] at h2; cases h2; exact hs
      · exact fun hs => .run hx hs

/-! ### Data -/

theorem Inv.addBad (h : Inv D own S0 θ M pre φ μ) {i : Nat} {st ds b f} (hi : θ i = .live st ds)
    (ha : ds.addBuffer b f = none) (us) :
    MakeParserRun (D i).env (D i).pat (smallDst (D i).dst) (S0 i) (usesOf i pre ++ .add b f :: us)
      (.error .ubData) := by
  have hh := h.holds i
  rw [hi] at hh
  obtain ⟨_, _, _, _, hh⟩ := hh
  exact (hh _ _).2 (.addBad (w := ⟨ds, μ i⟩) ha)

theorem Inv.add (h : Inv D own S0 θ M pre φ μ) {i : Nat} {st ds b f ds1} (hi : θ i = .live st ds)
    (ha : ds.addBuffer b f = some ds1) :
    ∃ φ' μ', Inv D own S0 (setObj θ i (.live st ds1)) M (pre ++ [.use i (.add b f)]) φ' μ' := by
  have hh := h.holds i
  rw [hi] at hh
  obtain ⟨st0, rfl, hb, ⟨c, hc⟩, hh⟩ := hh
  refine h.keep _ i (fun j hj => usesOf_other hj _) ⟨st0, rfl, hb, ?_, fun more v => ?_⟩
  · have := ContainerSeq.addBuffer_rel hc b f
    rw [ha] at this
    generalize c.addBuffer b f = x at this
    cases this with
    | some h => exact ⟨_, h⟩
  · rw [usesOf_same, List.append_assoc]
    refine (hh _ v).trans ⟨fun hs => ?_, fun hs => .add (w := ⟨ds, μ i⟩) ha hs⟩
    cases hs with
    | addBad h2 => rw [show ContainerSeq.addBuffer ds b f = none from h2] at ha; cases ha
    | add h2 hs =>
      rw [show ContainerSeq.addBuffer ds b f = some _ from h2] at ha
      cases ha
      exact hs

/-! ### consume -/

theorem Inv.error (how : Owned D own) (h : Inv D own S0 θ M pre φ μ) {i : Nat} {st ds e}
    (hi : θ i = .live st ds)
    (hv : Evals (D i).env (topParser (D i).pat) (D i).dst (D i).dst st ⟨ds, M⟩ (.error e)) (us) :
    MakeParserRun (D i).env (D i).pat (smallDst (D i).dst) (S0 i) (usesOf i pre ++ .consume :: us)
      (.error e) := by
  have hh := h.holds i
  rw [hi] at hh
  obtain ⟨st0, rfl, hb, _, hh⟩ := hh
  rw [← h.dst i] at hv
  obtain ⟨o', ho', hrel⟩ := (h.host i).evals' (how.heeds i).env (how.heeds i).top (h.below i) hb hv
  cases hrel
  exact (hh _ _).2 (.error ho')

/-- A `consume` of object `i`, in its own memory. -/
theorem Inv.consume (how : Owned D own) (h : Inv D own S0 θ M pre φ μ) {i : Nat} {st0 : PState}
    {ds : ContainerSeq} {r st1 ds1 M1}
    (hb : st0.In (Ref.Below (μ i).objs.length))
    (hv : Evals (D i).env (topParser (D i).pat) (D i).dst (D i).dst (st0.move (φ i)) ⟨ds, M⟩
      (.ok ((r, st1), ⟨ds1, M1⟩))) :
    ∃ st2 m1, Evals (D i).env (topParser (D i).pat) (smallDst (D i).dst) (smallDst (D i).dst) st0
        ⟨ds, μ i⟩ (.ok ((r, st2), ⟨ds1, m1⟩)) ∧
      st1 = st2.move ((φ i).next (μ i) M) ∧ st2.In (Ref.Below m1.objs.length) ∧
      (μ i).objs.length ≤ m1.objs.length ∧ Hosts (own i) ((φ i).next (μ i) M) m1 M1 ∧
      (∀ j, j ≠ i → Hosts (own j) (φ j) (μ j) M1) ∧
      ∀ j, j ≠ i → Separate ((φ i).next (μ i) M) m1 (φ j) (μ j) := by
  rw [← h.dst i] at hv
  obtain ⟨o', ho', hrel⟩ := (h.host i).evals' (how.heeds i).env (how.heeds i).top (h.below i) hb hv
  generalize hx : (Except.ok ((r, st1), ⟨ds1, M1⟩) : Out ContainerSeq Mem (Res × PState)) = x at hrel
  cases hrel with
  | error => cases hx
  | @ok a _ m1 _ host1 =>
    obtain ⟨r2, st2⟩ := a
    cases hx
    obtain ⟨n, hn⟩ := ho'.2
    have hbl := run_below (w := ⟨ds, μ i⟩) n
      (fun k hk => ⟨.inl ((h.below i).mono hk), .inl ((h.below i).mono hk)⟩) hb hn
    exact ⟨st2, m1, ho', rfl, hbl.1, hbl.2, host1,
      fun j hj => (h.host j).other_evals (h.sep i j (Ne.symm hj)) (A := fun a => own j a.id = false)
        (fun _ h => h) (how.foreign hj).env (how.foreign hj).top (h.below i) hb hv,
      fun j hj => (h.sep i j (Ne.symm hj)).next (h.host j) _⟩

theorem Inv.verdict (how : Owned D own) (h : Inv D own S0 θ M pre φ μ) {i : Nat} {st ds r st1 ds1 M1 rest}
    (hi : θ i = .live st ds)
    (hv : Evals (D i).env (topParser (D i).pat) (D i).dst (D i).dst st ⟨ds, M⟩
      (.ok ((r, st1), ⟨ds1, M1⟩))) (hr : r ≠ .PARTIAL) (hrd : Reads ds1 rest) :
    ∃ φ' μ', Inv D own S0 (setObj θ i (.done r rest)) M1 (pre ++ [.use i .consume]) φ' μ' := by
  have hh := h.holds i
  rw [hi] at hh
  obtain ⟨st0, rfl, hb, _, hh⟩ := hh
  obtain ⟨st2, m1, ho, rfl, hb2, hle, host1, others, sep1⟩ := h.consume how hb hv
  refine h.set _ i (fun j hj => usesOf_other hj _) (fun o ho => Place.next_eq ho) hle host1 others sep1 ?_
  intro more v
  rw [usesOf_same, List.append_assoc]
  refine (hh _ v).trans ⟨fun hs => ?_, fun hs => ?_⟩
  · cases hs with
    | error h2 => cases ho.unique h2
    | verdict h2 _ h3 => cases ho.unique h2; rw [hrd.unique h3]; rfl
    | more h2 => cases ho.unique h2; exact (hr rfl).elim
  · subst hs
    exact .verdict (w' := ⟨ds1, m1⟩) ho hr hrd

theorem Inv.more (how : Owned D own) (h : Inv D own S0 θ M pre φ μ) {i : Nat} {st ds st1 ds1 M1}
    (hi : θ i = .live st ds)
    (hv : Evals (D i).env (topParser (D i).pat) (D i).dst (D i).dst st ⟨ds, M⟩
      (.ok ((.PARTIAL, st1), ⟨ds1, M1⟩))) :
    ∃ φ' μ', Inv D own S0 (setObj θ i (.live st1 ds1)) M1 (pre ++ [.use i .consume]) φ' μ' := by
  have hh := h.holds i
  rw [hi] at hh
  obtain ⟨st0, rfl, hb, hc, hh⟩ := hh
  obtain ⟨st2, m1, ho, rfl, hb2, hle, host1, others, sep1⟩ := h.consume how hb hv
  refine h.set _ i (fun j hj => usesOf_other hj _) (fun o ho => Place.next_eq ho) hle host1 others sep1 ?_
  refine ⟨st2, rfl, hb2, evals_rel ho hc, fun more v => ?_⟩
  rw [usesOf_same, List.append_assoc]
  refine (hh _ v).trans ⟨fun hs => ?_, fun hs => .more ho hs⟩
  cases hs with
  | error h2 => cases ho.unique h2
  | verdict h2 hn => cases ho.unique h2; exact (hn rfl).elim
  | more h2 hs => cases ho.unique h2; exact hs

/-! ### After the verdict -/

theorem Inv.addDone (h : Inv D own S0 θ M pre φ μ) {i : Nat} {r rest} (b f) (hi : θ i = .done r rest) :
    ∃ φ' μ', Inv D own S0 (setObj θ i (.done r (rest ++ b))) M (pre ++ [.use i (.add b f)]) φ' μ' := by
  have hh := h.holds i
  rw [hi] at hh
  refine h.keep _ i (fun j hj => usesOf_other hj _) fun more v => ?_
  rw [usesOf_same, List.append_assoc]
  refine (hh _ v).trans ?_
  simp [opsText]

theorem setObj_self {θ : Nat → ObjState} {i : Nat} {s : ObjState} (h : θ i = s) : setObj θ i s = θ := by
  funext j
  by_cases hj : j = i
  · subst hj; rw [setObj_same, h]
  · rw [setObj_other hj]

theorem Inv.consumeDone (h : Inv D own S0 θ M pre φ μ) {i : Nat} {r rest} (hi : θ i = .done r rest) :
    ∃ φ' μ', Inv D own S0 θ M (pre ++ [.use i .consume]) φ' μ' := by
  have hh := h.holds i
  rw [hi] at hh
  have := h.keep (.use i .consume) i (fun j hj => usesOf_other hj _) (s := .done r rest) fun more v => by
    rw [usesOf_same, List.append_assoc]
    refine (hh _ v).trans ?_
    simp [opsText]
  rwa [setObj_self hi] at this

/-! ### Programs -/

/-- What the outcome of a program says about its objects in memories of their own. -/
def SmallOut (D : Nat → Decl) (own : Nat → Nat → Bool) (S0 : Nat → Mem) (θ : Nat → ObjState)
    (pre ops : List UOp) : Except Err ((Nat → ObjState) × Mem) → Prop
  | .ok (θ', M') => ∃ φ' μ', Inv D own S0 θ' M' (pre ++ ops) φ' μ'
  | .error e => ∃ i, (θ i ≠ .absent ∨ Creates i ops) ∧
      MakeParserRun (D i).env (D i).pat (smallDst (D i).dst) (S0 i) (usesOf i (pre ++ ops)) (.error e)

/-- A program and its objects in memories of their own. -/
theorem Program.small (how : Owned D own) {ops v} (hp : Program D θ M ops v) :
    ∀ {pre φ μ}, Inv D own S0 θ M pre φ μ →
    SmallOut D own S0 θ pre ops v := by
  induction hp with
  | @nil θ m => intro pre φ μ h; exact ⟨φ, μ, by rwa [List.append_nil]⟩
  | @makeBad θ m i ops e hi hc =>
    intro pre φ μ h
    exact ⟨i, .inr (.inl rfl), h.makeBad hi hc _⟩
  | @make θ m i ops st ds m1 v hi hc _ ih =>
    intro pre φ μ h
    obtain ⟨φ', μ', h'⟩ := h.make hi hc
    have := ih h'
    simp only [SmallOut, List.append_assoc, List.singleton_append] at this ⊢
    cases v with
    | ok _ => exact this
    | error e =>
      obtain ⟨j, hj, hr⟩ := this
      refine ⟨j, ?_, hr⟩
      by_cases hji : j = i
      · exact .inr (.inl hji.symm)
      · rw [setObj_other hji] at hj
        exact hj.imp id .inr
  | @addBad θ m i st ds b f ops hi ha =>
    intro pre φ μ h
    refine ⟨i, .inl (by rw [hi]; simp), ?_⟩
    rw [usesOf_append]
    simpa [usesOf] using h.addBad hi ha (usesOf i ops)
  | @add θ m i st ds b f ops ds1 v hi ha _ ih =>
    intro pre φ μ h
    obtain ⟨φ', μ', h'⟩ := h.add hi ha
    have := ih h'
    simp only [SmallOut, List.append_assoc, List.singleton_append] at this ⊢
    cases v with
    | ok _ => exact this
    | error e =>
      obtain ⟨j, hj, hr⟩ := this
      refine ⟨j, ?_, hr⟩
      by_cases hji : j = i
      · subst hji; exact .inl (by rw [hi]; simp)
      · rw [setObj_other hji] at hj; exact hj
  | @error θ m i st ds ops e hi hv =>
    intro pre φ μ h
    refine ⟨i, .inl (by rw [hi]; simp), ?_⟩
    rw [usesOf_append]
    simpa [usesOf] using h.error how hi hv (usesOf i ops)
  | @verdict θ m i st ds ops r st1 ds1 m1 rest v hi hv hn hrd _ ih =>
    intro pre φ μ h
    obtain ⟨φ', μ', h'⟩ := h.verdict how hi hv hn hrd
    have := ih h'
    simp only [SmallOut, List.append_assoc, List.singleton_append] at this ⊢
    cases v with
    | ok _ => exact this
    | error e =>
      obtain ⟨j, hj, hr⟩ := this
      refine ⟨j, ?_, hr⟩
      by_cases hji : j = i
      · subst hji; exact .inl (by rw [hi]; simp)
      · rw [setObj_other hji] at hj; exact hj
  | @more θ m i st ds ops st1 ds1 m1 v hi hv _ ih =>
    intro pre φ μ h
    obtain ⟨φ', μ', h'⟩ := h.more how hi hv
    have := ih h'
    simp only [SmallOut, List.append_assoc, List.singleton_append] at this ⊢
    cases v with
    | ok _ => exact this
    | error e =>
      obtain ⟨j, hj, hr⟩ := this
      refine ⟨j, ?_, hr⟩
      by_cases hji : j = i
      · subst hji; exact .inl (by rw [hi]; simp)
      · rw [setObj_other hji] at hj; exact hj
  | @addDone θ m i r rest b f ops v hi _ ih =>
    intro pre φ μ h
    obtain ⟨φ', μ', h'⟩ := h.addDone b f hi
    have := ih h'
    simp only [SmallOut, List.append_assoc, List.singleton_append] at this ⊢
    cases v with
    | ok _ => exact this
    | error e =>
      obtain ⟨j, hj, hr⟩ := this
      refine ⟨j, ?_, hr⟩
      by_cases hji : j = i
      · subst hji; exact .inl (by rw [hi]; simp)
      · rw [setObj_other hji] at hj; exact hj
  | @consumeDone θ m i r rest ops v hi _ ih =>
    intro pre φ μ h
    obtain ⟨φ', μ', h'⟩ := h.consumeDone hi
    have := ih h'
    simp only [SmallOut, List.append_assoc, List.singleton_append] at this ⊢
    cases v with
    | ok _ => exact this
    | error e => exact this

theorem Ordered.congr {A B : Nat → Prop} (h : ∀ i, A i ↔ B i) : ∀ {ops : List UOp}, Ordered A ops → Ordered B ops := by
  have : A = B := funext fun i => propext (h i)
  subst this
  intro ops hh
  exact hh

/-- The program goes through, or ends in undefined behaviour, if that is so for its objects. -/
theorem Program.exists (how : Owned D own) (ops : List UOp) : ∀ {θ M pre φ μ}, Inv D own S0 θ M pre φ μ →
    Ordered (fun i => θ i ≠ .absent) ops →
    (∀ i, θ i ≠ .absent ∨ Creates i ops → ∃ v,
      MakeParserRun (D i).env (D i).pat (smallDst (D i).dst) (S0 i) (usesOf i (pre ++ ops)) v) →
    ∃ v, Program D θ M ops v := by
  induction ops with
  | nil => intro θ M pre φ μ _ _ _; exact ⟨_, .nil⟩
  | cons u ops ih =>
    intro θ M pre φ μ h hord hex
    have hex' : ∀ i, θ i ≠ .absent ∨ Creates i (u :: ops) → ∃ v, MakeParserRun (D i).env (D i).pat
        (smallDst (D i).dst) (S0 i) (usesOf i ((pre ++ [u]) ++ ops)) v := by
      intro i hi; rw [List.append_assoc]; exact hex i hi
    cases u with
    | make i =>
      have hi : θ i = .absent := Classical.byContradiction hord.1
      generalize hc : Abu.construct (topParser (D i).pat) (D i).dst (D i).dst
        (⟨ContainerSeq.make, M⟩ : World ContainerSeq Mem) = x
      match x, hc with
      | .error e, hc => exact ⟨_, .makeBad hi hc⟩
      | .ok (st, ⟨ds, M1⟩), hc =>
        obtain ⟨φ', μ', h'⟩ := h.make hi hc
        obtain ⟨v, hv⟩ := ih h' (hord.2.congr fun j => by
          by_cases hj : j = i
          · simp [hj, setObj_same]
          · simp [hj, setObj_other hj]) fun j hj => hex' j (by
            by_cases hji : j = i
            · exact .inr (.inl hji.symm)
            · rw [setObj_other hji] at hj; exact hj.imp id .inr)
        exact ⟨v, .make hi hc hv⟩
    | use i op =>
      have hcont : ∀ {s M1 φ' μ'}, s ≠ .absent →
          Inv D own S0 (setObj θ i s) M1 (pre ++ [.use i op]) φ' μ' →
          ∃ v, Program D (setObj θ i s) M1 ops v := by
        intro s M1 φ' μ' hs h'
        have hiff : ∀ j, setObj θ i s j ≠ .absent ↔ θ j ≠ .absent := fun j => by
          by_cases hj : j = i
          · subst hj; rw [setObj_same]; exact ⟨fun _ => hord.1, fun _ => hs⟩
          · rw [setObj_other hj]
        exact ih h' (hord.2.congr fun j => (hiff j).symm) fun j hj => hex' j (hj.imp (hiff j).1 id)
      cases hi : θ i with
      | absent => exact (hord.1 hi).elim
      | live st ds =>
        cases op with
        | add b f =>
          cases ha : ds.addBuffer b f with
          | none => exact ⟨_, .addBad hi ha⟩
          | some ds1 =>
            obtain ⟨φ', μ', h'⟩ := h.add hi ha
            obtain ⟨v, hv⟩ := hcont (by simp) h'
            exact ⟨v, .add hi ha hv⟩
        | consume =>
          have hh := h.holds i
          rw [hi] at hh
          obtain ⟨st0, rfl, hb, hc, hh⟩ := hh
          obtain ⟨v, hv⟩ := hex i (.inl hord.1)
          rw [usesOf_append] at hv
          simp only [usesOf, if_true] at hv
          have hv := (hh _ _).1 hv
          have hev : ∃ o, Evals (D i).env (topParser (D i).pat) (smallDst (D i).dst) (smallDst (D i).dst)
              st0 ⟨ds, μ i⟩ o := by
            cases hv with
            | error h2 => exact ⟨_, h2⟩
            | verdict h2 => exact ⟨_, h2⟩
            | more h2 => exact ⟨_, h2⟩
          obtain ⟨o, ho⟩ := hev
          obtain ⟨o', ho', hrel⟩ := (h.host i).evals (how.heeds i).env (how.heeds i).top (h.below i) hb ho
          rw [h.dst i] at ho'
          match o', ho', hrel with
          | .error e, ho', _ => exact ⟨_, .error hi ho'⟩
          | .ok ((r, st1), ⟨ds1, M1⟩), ho', hrel =>
            by_cases hr : r = .PARTIAL
            · subst hr
              obtain ⟨φ', μ', h'⟩ := h.more how hi ho'
              obtain ⟨v, hv⟩ := hcont (by simp) h'
              exact ⟨v, .more hi ho' hv⟩
            · obtain ⟨rest, hrd⟩ := Holds.reads (evals_rel ho' hc)
              obtain ⟨φ', μ', h'⟩ := h.verdict how hi ho' hr hrd
              obtain ⟨v, hv⟩ := hcont (by simp) h'
              exact ⟨v, .verdict hi ho' hr hrd hv⟩
      | done r rest =>
        cases op with
        | add b f =>
          obtain ⟨φ', μ', h'⟩ := h.addDone b f hi
          obtain ⟨v, hv⟩ := hcont (by simp) h'
          exact ⟨v, .addDone hi hv⟩
        | consume =>
          obtain ⟨φ', μ', h'⟩ := h.consumeDone hi
          rw [← setObj_self hi] at h'
          obtain ⟨v, hv⟩ := hcont (by simp) h'
          rw [setObj_self hi] at hv
          exact ⟨v, .consumeDone hi hv⟩

/-! ### One object alone -/

theorem Session.program {i : Nat} {st : PState} {w : World ContainerSeq Mem} {us v}
    (h : Session ContainerSeq.addBuffer (D i).env (topParser (D i).pat) (D i).dst st w us v) :
    ∀ {θ}, θ i = .live st w.ds → ∃ v', Program D θ w.mem (us.map (.use i)) v' ∧
      ∀ e, v = .error e → v' = .error e := by
  have hdone : ∀ (us : List SOp) θ (m : Mem) r rest, θ i = .done r rest →
      ∃ θ', Program D θ m (us.map (.use i)) (.ok (θ', m)) := by
    intro us
    induction us with
    | nil => intro θ m r rest _; exact ⟨θ, .nil⟩
    | cons u us ih =>
      intro θ m r rest hi
      cases u with
      | add b f =>
        obtain ⟨θ', h⟩ := ih (setObj θ i (.done r (rest ++ b))) m _ _ (setObj_same _ _ _)
        exact ⟨θ', .addDone hi h⟩
      | consume =>
        obtain ⟨θ', h⟩ := ih θ m _ _ hi
        exact ⟨θ', .consumeDone hi h⟩
  induction h with
  | nil _ => intro θ _; exact ⟨_, .nil, fun _ h => (by cases h)⟩
  | addBad ha => intro θ hi; exact ⟨_, .addBad hi ha, fun _ h => (by cases h; rfl)⟩
  | add ha _ ih =>
    intro θ hi
    obtain ⟨v', h1, h2⟩ := ih (θ := setObj θ i (.live _ _)) (setObj_same _ _ _)
    exact ⟨v', .add hi ha h1, h2⟩
  | error hv => intro θ hi; exact ⟨_, .error hi hv, fun _ h => (by cases h; rfl)⟩
  | verdict hv hn hr =>
    intro θ hi
    obtain ⟨θ', h⟩ := hdone _ (setObj θ i (.done _ _)) _ _ _ (setObj_same _ _ _)
    exact ⟨_, .verdict hi hv hn hr h, fun _ h => (by cases h)⟩
  | more hv _ ih =>
    intro θ hi
    obtain ⟨v', h1, h2⟩ := ih (θ := setObj θ i (.live _ _)) (setObj_same _ _ _)
    exact ⟨v', .more hi hv h1, h2⟩

theorem MakeParserRun.program {i : Nat} {m0 : Mem} {us v}
    (h : MakeParserRun (D i).env (D i).pat (D i).dst m0 us v) :
    ∃ v', Program D noObjects m0 (.make i :: us.map (.use i)) v' ∧ ∀ e, v = .error e → v' = .error e := by
  cases h with
  | construct hc => exact ⟨_, .makeBad rfl hc, fun _ h => (by cases h; rfl)⟩
  | @run st w v hc hs =>
    obtain ⟨v', h1, h2⟩ := hs.program (θ := setObj noObjects i (.live st w.ds)) (setObj_same _ _ _)
    exact ⟨v', .make rfl hc h1, h2⟩

theorem Program.session {i : Nat} {ops v} (h : Program D θ M ops v) :
    ∀ {us st ds}, ops = us.map (.use i) → θ i = .live st ds →
      (∀ e, v = .error e → Session ContainerSeq.addBuffer (D i).env (topParser (D i).pat) (D i).dst st
        ⟨ds, M⟩ us (.error e)) ∧
      ∀ θ' M' r rest, v = .ok (θ', M') → (θ' i).Shows r rest →
        Session ContainerSeq.addBuffer (D i).env (topParser (D i).pat) (D i).dst st ⟨ds, M⟩ us
          (.ok (r, M', rest)) := by
  have hdone : ∀ {θ M ops v}, Program D θ M ops v → ∀ {us r rest}, ops = us.map (.use i) →
      θ i = .done r rest → ∃ θ', v = .ok (θ', M) ∧ θ' i = .done r (rest ++ opsText us) := by
    intro θ M ops v h
    induction h with
    | nil =>
      intro us r rest he hi
      cases us with
      | nil => exact ⟨_, rfl, by simpa [opsText] using hi⟩
      | cons => cases he
    | makeBad => intro us r rest he; cases us <;> cases he
    | make => intro us r rest he; cases us <;> cases he
    | addBad h2 => intro us r rest he hi; cases us <;> cases he; rw [hi] at h2; cases h2
    | add h2 => intro us r rest he hi; cases us <;> cases he; rw [hi] at h2; cases h2
    | error h2 => intro us r rest he hi; cases us <;> cases he; rw [hi] at h2; cases h2
    | verdict h2 => intro us r rest he hi; cases us <;> cases he; rw [hi] at h2; cases h2
    | more h2 => intro us r rest he hi; cases us <;> cases he; rw [hi] at h2; cases h2
    | addDone h2 _ ih =>
      intro us r rest he hi
      cases us with
      | nil => cases he
      | cons u us =>
        cases he
        rw [hi] at h2; cases h2
        obtain ⟨θ', h3, h4⟩ := ih rfl (setObj_same _ _ _)
        exact ⟨θ', h3, by simpa [opsText] using h4⟩
    | consumeDone h2 _ ih =>
      intro us r rest he hi
      cases us with
      | nil => cases he
      | cons u us =>
        cases he
        obtain ⟨θ', h3, h4⟩ := ih rfl hi
        exact ⟨θ', h3, by simpa [opsText] using h4⟩
  induction h with
  | nil =>
    intro us st ds he hi
    cases us with
    | nil =>
      refine ⟨fun _ h => (by cases h), fun θ' M' r rest h hs => ?_⟩
      cases h
      rw [hi] at hs
      obtain ⟨rfl, hr⟩ := hs
      exact .nil (w := ⟨ds, _⟩) hr
    | cons => cases he
  | makeBad => intro us st ds he; cases us <;> cases he
  | make => intro us st ds he; cases us <;> cases he
  | @addBad θ m j st ds b f ops h2 ha =>
    intro us st ds he hi
    cases us with
    | nil => cases he
    | cons u us =>
      cases he
      rw [hi] at h2; cases h2
      exact ⟨fun _ h => (by cases h; exact .addBad (w := ⟨ds, m⟩) ha), fun _ _ _ _ h => (by cases h)⟩
  | @add θ m j st ds b f ops ds1 v h2 ha _ ih =>
    intro us st ds he hi
    cases us with
    | nil => cases he
    | cons u us =>
      cases he
      rw [hi] at h2; cases h2
      obtain ⟨h3, h4⟩ := ih rfl (setObj_same _ _ _)
      exact ⟨fun e h => .add (w := ⟨ds, m⟩) ha (h3 e h),
        fun θ' M' r rest h hs => .add (w := ⟨ds, m⟩) ha (h4 _ _ _ _ h hs)⟩
  | @error θ m j st ds ops e h2 hv =>
    intro us st ds he hi
    cases us with
    | nil => cases he
    | cons u us =>
      cases he
      rw [hi] at h2; cases h2
      exact ⟨fun _ h => (by cases h; exact .error hv), fun _ _ _ _ h => (by cases h)⟩
  | @verdict θ m j st ds ops r st1 ds1 m1 rest v h2 hv hn hr hprog _ =>
    intro us st ds he hi
    cases us with
    | nil => cases he
    | cons u us =>
      cases he
      rw [hi] at h2; cases h2
      obtain ⟨θ2, h3, h4⟩ := hdone hprog rfl (setObj_same _ _ _)
      subst h3
      refine ⟨fun _ h => (by cases h), fun θ' M' r' rest' h hs => ?_⟩
      cases h
      rw [h4] at hs
      obtain ⟨rfl, rfl⟩ := hs
      exact .verdict (w' := ⟨ds1, m1⟩) hv hn hr
  | @more θ m j st ds ops st1 ds1 m1 v h2 hv _ ih =>
    intro us st ds he hi
    cases us with
    | nil => cases he
    | cons u us =>
      cases he
      rw [hi] at h2; cases h2
      obtain ⟨h3, h4⟩ := ih rfl (setObj_same _ _ _)
      exact ⟨fun e h => .more hv (h3 e h), fun θ' M' r rest h hs => .more hv (h4 _ _ _ _ h hs)⟩
  | addDone h2 => intro us st ds he hi; cases us <;> cases he; rw [hi] at h2; cases h2
  | consumeDone h2 => intro us st ds he hi; cases us <;> cases he; rw [hi] at h2; cases h2

theorem Program.makeParserRun {i : Nat} {m0 : Mem} {us v}
    (h : Program D noObjects m0 (.make i :: us.map (.use i)) v) :
    (∀ e, v = .error e → MakeParserRun (D i).env (D i).pat (D i).dst m0 us (.error e)) ∧
    ∀ θ' M' r rest, v = .ok (θ', M') → (θ' i).Shows r rest →
      MakeParserRun (D i).env (D i).pat (D i).dst m0 us (.ok (r, M', rest)) := by
  cases h with
  | makeBad _ hc => exact ⟨fun _ h => (by cases h; exact .construct hc), fun _ _ _ _ h => (by cases h)⟩
  | make _ hc hp =>
    obtain ⟨h1, h2⟩ := hp.session rfl (setObj_same _ _ _)
    exact ⟨fun e h => .run hc (h1 e h), fun θ' M' r rest h hs => .run hc (h2 _ _ _ _ h hs)⟩

theorem Program.present {ops v} (h : Program D θ M ops v) :
    ∀ {θ' M' i}, v = .ok (θ', M') → θ i ≠ .absent ∨ Creates i ops → θ' i ≠ .absent := by
  have hset : ∀ {θ : Nat → ObjState} {i j s} {P : Prop}, s ≠ .absent → θ j ≠ .absent ∨ P →
      setObj θ i s j ≠ .absent ∨ P := by
    intro θ i j s P hs h
    by_cases hj : j = i
    · subst hj; left; rw [setObj_same]; exact hs
    · rw [setObj_other hj]; exact h
  induction h with
  | nil =>
    intro θ' M' i h hi
    cases h
    exact hi.elim id fun h => h.elim
  | makeBad | addBad | error => intro θ' M' i h; cases h
  | @make θ m j ops st ds m1 v _ _ _ ih =>
    intro θ' M' i h hi
    refine ih h ?_
    by_cases hj : i = j
    · subst hj; left; rw [setObj_same]; simp
    · rw [setObj_other hj]
      exact hi.imp id fun h => h.resolve_left (Ne.symm hj)
  | add _ _ _ ih => intro θ' M' i h hi; exact ih h (hset (by simp) hi)
  | verdict _ _ _ _ _ ih => intro θ' M' i h hi; exact ih h (hset (by simp) hi)
  | more _ _ _ ih => intro θ' M' i h hi; exact ih h (hset (by simp) hi)
  | addDone _ _ ih => intro θ' M' i h hi; exact ih h (hset (by simp) hi)
  | consumeDone _ _ ih => intro θ' M' i h hi; exact ih h hi

theorem ordered_uses (i : Nat) (us : List SOp) {A : Nat → Prop} (h : A i) : Ordered A (us.map (.use i)) := by
  induction us with
  | nil => trivial
  | cons u us ih => exact ⟨h, ih⟩

theorem creates_uses (i j : Nat) (us : List SOp) : ¬ Creates i (us.map (.use j)) := by
  induction us with
  | nil => exact fun h => h
  | cons u us ih => exact ih

theorem Session.unique {env p dst st} {w : World ContainerSeq Mem} {us v}
    (h : Session ContainerSeq.addBuffer env p dst st w us v) :
    ∀ {v'}, Session ContainerSeq.addBuffer env p dst st w us v' → v = v' := by
  induction h with
  | nil h => intro v' h'; cases h' with | nil h2 => rw [h.unique h2]
  | addBad h =>
    intro v' h'
    cases h' with
    | addBad => rfl
    | add h2 => rw [h] at h2; cases h2
  | add h _ ih =>
    intro v' h'
    cases h' with
    | addBad h2 => rw [h] at h2; cases h2
    | add h2 h3 => rw [h] at h2; cases h2; exact ih h3
  | error h =>
    intro v' h'
    cases h' with
    | error h2 => cases h.unique h2; rfl
    | verdict h2 => cases h.unique h2
    | more h2 => cases h.unique h2
  | verdict h hn hr =>
    intro v' h'
    cases h' with
    | error h2 => cases h.unique h2
    | verdict h2 _ h3 => cases h.unique h2; rw [hr.unique h3]
    | more h2 => cases h.unique h2; exact (hn rfl).elim
  | more h _ ih =>
    intro v' h'
    cases h' with
    | error h2 => cases h.unique h2
    | verdict h2 hn => cases h.unique h2; exact (hn rfl).elim
    | more h2 h3 => cases h.unique h2; exact ih h3

theorem MakeParserRun.unique {env p dst m us v v'} (h : MakeParserRun env p dst m us v)
    (h' : MakeParserRun env p dst m us v') : v = v' := by
  cases h with
  | construct h =>
    cases h' with
    | construct h2 => rw [h] at h2; cases h2; rfl
    | run h2 => rw [h] at h2; cases h2
  | run h hs =>
    cases h' with
    | construct h2 => rw [h] at h2; cases h2
    | run h2 hs2 => rw [h] at h2; cases h2; exact hs.unique hs2

/-! ### Between a memory of its own and any other -/

variable {m0 : Mem}

/-- The outcome of object `i` in the memory `m0` and in one with only its destination. -/
theorem small_alone (how : Owned D own) (hex : ∀ i, (D i).dst.Exists m0)
    (hap : ∀ i j, i ≠ j → (D i).dst.Apart (D j).dst) (i : Nat) {us r m rest}
    (h : MakeParserRun (D i).env (D i).pat (smallDst (D i).dst) (smallMem m0 (D i).dst) us (.ok (r, m, rest))) :
    ∃ m1 φ, MakeParserRun (D i).env (D i).pat (D i).dst m0 us (.ok (r, m1, rest)) ∧
      Hosts (own i) φ m m1 ∧ (smallDst (D i).dst).move φ = (D i).dst ∧
      (smallDst (D i).dst).Below m.objs.length := by
  have hu : usesOf i (.make i :: us.map (.use i)) = us := usesOf_map i us
  obtain ⟨v, hv⟩ := Program.exists how (.make i :: us.map (.use i)) (Inv.start hex hap)
    ⟨fun h => h rfl, ordered_uses i us (.inr rfl)⟩ fun j hj => by
      have : j = i := by
        rcases hj with hj | hj | hj
        · exact (hj rfl).elim
        · exact hj.symm
        · exact (creates_uses _ _ _ hj).elim
      subst this
      rw [List.nil_append, hu]
      exact ⟨_, h⟩
  have hs := hv.small how (Inv.start hex hap)
  match v, hv, hs with
  | .error e, hv, ⟨j, hj, hr⟩ =>
    have : j = i := by
      rcases hj with hj | hj | hj
      · exact (hj rfl).elim
      · exact hj.symm
      · exact (creates_uses _ _ _ hj).elim
    subst this
    rw [List.nil_append, hu] at hr
    cases h.unique hr
  | .ok (θ', M'), hv, ⟨φ', μ', hI⟩ =>
    have hne := hv.present rfl (.inr (Or.inl rfl : i = i ∨ Creates i _))
    have hh := hI.holds i
    rw [List.nil_append, hu] at hh
    obtain ⟨r', rest', hsh⟩ := hh.shows hne
    have := (hh.verdict hsh _).1 h
    cases this
    exact ⟨M', φ' i, (hv.makeParserRun).2 _ _ _ _ rfl hsh, hI.host i, hI.dst i, hI.below i⟩

theorem creates_only {i j : Nat} {us : List SOp} (h : noObjects j ≠ .absent ∨ Creates j (.make i :: us.map (.use i))) :
    j = i := by
  rcases h with h | h | h
  · exact (h rfl).elim
  · exact h.symm
  · exact (creates_uses _ _ _ h).elim

theorem alone_small (how : Owned D own) (hex : ∀ i, (D i).dst.Exists m0)
    (hap : ∀ i j, i ≠ j → (D i).dst.Apart (D j).dst) {i : Nat} {us v}
    (h : MakeParserRun (D i).env (D i).pat (D i).dst m0 us v) :
    ∃ v', MakeParserRun (D i).env (D i).pat (smallDst (D i).dst) (smallMem m0 (D i).dst) us v' ∧
      ∀ e, v' = .error e → v = .error e := by
  have hu : usesOf i (.make i :: us.map (.use i)) = us := usesOf_map i us
  obtain ⟨v1, hv, _⟩ := h.program
  have hs := hv.small how (Inv.start hex hap)
  match v1, hv, hs with
  | .error e, hv, ⟨j, hj, hr⟩ =>
    have := creates_only hj
    subst this
    rw [List.nil_append, hu] at hr
    exact ⟨_, hr, fun _ h2 => (by cases h2; exact h.unique (hv.makeParserRun.1 _ rfl))⟩
  | .ok (θ', M'), hv, ⟨φ', μ', hI⟩ =>
    have hne := hv.present rfl (.inr (Or.inl rfl : i = i ∨ Creates i _))
    have hh := hI.holds i
    rw [List.nil_append, hu] at hh
    obtain ⟨r', rest', hsh⟩ := hh.shows hne
    exact ⟨_, (hh.verdict hsh _).2 rfl, fun _ h => (by cases h)⟩

theorem small_alone_error (how : Owned D own) (hex : ∀ i, (D i).dst.Exists m0)
    (hap : ∀ i j, i ≠ j → (D i).dst.Apart (D j).dst) {i : Nat} {us e}
    (h : MakeParserRun (D i).env (D i).pat (smallDst (D i).dst) (smallMem m0 (D i).dst) us (.error e)) :
    MakeParserRun (D i).env (D i).pat (D i).dst m0 us (.error e) := by
  have hu : usesOf i (.make i :: us.map (.use i)) = us := usesOf_map i us
  obtain ⟨v, hv⟩ := Program.exists how (.make i :: us.map (.use i)) (Inv.start hex hap)
    ⟨fun h => h rfl, ordered_uses i us (.inr rfl)⟩ fun j hj => by
      have := creates_only hj
      subst this
      rw [List.nil_append, hu]
      exact ⟨_, h⟩
  have hs := hv.small how (Inv.start hex hap)
  match v, hv, hs with
  | .error e', hv, ⟨j, hj, hr⟩ =>
    have := creates_only hj
    subst this
    rw [List.nil_append, hu] at hr
    cases h.unique hr
    exact hv.makeParserRun.1 _ rfl
  | .ok (θ', M'), hv, ⟨φ', μ', hI⟩ =>
    have hne := hv.present rfl (.inr (Or.inl rfl : i = i ∨ Creates i _))
    have hh := hI.holds i
    rw [List.nil_append, hu] at hh
    obtain ⟨r', rest', hsh⟩ := hh.shows hne
    cases (hh.verdict hsh _).1 h

/-! ### What no object writes -/

theorem Program.misses {o : Nat} {q : List Nat} {v : Val} {ops w} (h : Program D θ M ops w) :
    (∀ i, θ i ≠ .absent ∨ Creates i ops → (D i).dst.Misses o q) → M.look o q = .ok v →
    (∀ i st ds, θ i = .live st ds → st.In (Ref.Misses o q)) →
    ∀ θ' M', w = .ok (θ', M') → M'.look o q = .ok v := by
  have hset : ∀ {θ : Nat → ObjState} {i : Nat} {s : ObjState},
      (∀ i st ds, θ i = .live st ds → st.In (Ref.Misses o q)) →
      (∀ st ds, s = .live st ds → st.In (Ref.Misses o q)) →
      ∀ j st ds, setObj θ i s j = .live st ds → st.In (Ref.Misses o q) := by
    intro θ i s h1 h2 j st ds hj
    by_cases hji : j = i
    · subst hji; rw [setObj_same] at hj; exact h2 _ _ hj
    · rw [setObj_other hji] at hj; exact h1 _ _ _ hj
  have hpres : ∀ {θ : Nat → ObjState} {i : Nat} {s : ObjState} {ops : List UOp} {u : UOp}, θ i ≠ .absent →
      (∀ i, Creates i ops → Creates i (u :: ops)) →
      (∀ i, θ i ≠ .absent ∨ Creates i (u :: ops) → (D i).dst.Misses o q) →
      ∀ j, setObj θ i s j ≠ .absent ∨ Creates j ops → (D j).dst.Misses o q := by
    intro θ i s ops u hi hu h j hj
    refine h j ?_
    by_cases hji : j = i
    · subst hji; exact .inl hi
    · rw [setObj_other hji] at hj; exact hj.imp id (hu j)
  induction h with
  | nil => intro _ hl _ θ' M' h; cases h; exact hl
  | makeBad | addBad | error => intro _ _ _ θ' M' h; cases h
  | @make θ m i ops st ds m1 v2 hi hc _ ih =>
    intro hd hl hst θ' M' h
    have hdi := hd i (.inr (.inl rfl))
    have := construct_uses (misses_region _ _) (misses_keeps _ _ v) (.inl hdi) hl hc
    refine ih ?_ this.2 (hset hst fun _ _ h => (by cases h; exact this.1)) θ' M' h
    intro j hj
    by_cases hji : j = i
    · subst hji; exact hdi
    · rw [setObj_other hji] at hj; exact hd j (hj.imp id .inr)
  | @add θ m i st ds b f ops ds1 v2 hi ha _ ih =>
    intro hd hl hst θ' M' h
    exact ih (hpres (u := .use i (.add b f)) (by rw [hi]; simp) (fun _ h => h) hd) hl
      (hset hst fun _ _ h => (by cases h; exact hst _ _ _ hi)) θ' M' h
  | @verdict θ m i st ds ops r st1 ds1 m1 rest v2 hi hv _ _ _ ih =>
    intro hd hl hst θ' M' h
    have hdi := hd i (.inl (by rw [hi]; simp))
    obtain ⟨_, n, hv⟩ := hv
    have := run_uses (misses_region _ _) (misses_keeps _ _ v) n (.inl hdi) (.inl hdi) (hst _ _ _ hi) hl hv
    exact ih (hpres (u := .use i .consume) (by rw [hi]; simp) (fun _ h => h) hd) this.2
      (hset hst fun _ _ h => (by cases h)) θ' M' h
  | @more θ m i st ds ops st1 ds1 m1 v2 hi hv _ ih =>
    intro hd hl hst θ' M' h
    have hdi := hd i (.inl (by rw [hi]; simp))
    obtain ⟨_, n, hv⟩ := hv
    have := run_uses (misses_region _ _) (misses_keeps _ _ v) n (.inl hdi) (.inl hdi) (hst _ _ _ hi) hl hv
    exact ih (hpres (u := .use i .consume) (by rw [hi]; simp) (fun _ h => h) hd) this.2
      (hset hst fun _ _ h => (by cases h; exact this.1)) θ' M' h
  | @addDone θ m i r rest b f ops v2 hi _ ih =>
    intro hd hl hst θ' M' h
    exact ih (hpres (u := .use i (.add b f)) (by rw [hi]; simp) (fun _ h => h) hd) hl
      (hset hst fun _ _ h => (by cases h)) θ' M' h
  | @consumeDone θ m i r rest ops v2 hi _ ih =>
    intro hd hl hst θ' M' h
    exact ih hd hl hst θ' M' h

end
end Abu
