import Verif.Proofs.Logs
import Verif.Proofs.Session
/-
One step of a parser object among others, compared with the same step in a memory of its own.
-/
namespace Abu

/-- The memory `M` has all objects of `m`, at separate places, and the calls of the actions in `S`
are the same. -/
structure Hosts (S : Nat → Bool) (φ : Place) (m M : Mem) : Prop where
  val : ∀ (o : Nat) (v : Val), m.objs[o]? = some v → M.look (φ o).1 (φ o).2 = .ok v
  apart : ∀ o o', o < m.objs.length → o' < m.objs.length → o ≠ o' →
    (φ o).1 ≠ (φ o').1 ∨ Diverge (φ o).2 (φ o').2
  log : M.log.filter (fun e => S e.action) = m.log.filter (fun e => S e.action)

/-- New objects from `k` on are placed from `k'` on. -/
def Place.extend (φ : Place) (k k' : Nat) : Place := fun o => if o < k then φ o else (o - k + k', [])

section
variable {S : Nat → Bool} {φ : Place} {m M : Mem}

theorem Hosts.inside (h : Hosts S φ m M) {o : Nat} (ho : o < m.objs.length) :
    (φ o).1 < M.objs.length := look_lt (h.val o _ (List.getElem?_eq_getElem ho))

theorem Hosts.ok (h : Hosts S φ m M) :
    (φ.extend m.objs.length M.objs.length).Ok m.objs.length M.objs.length where
  new o ho := by simp only [Place.extend]; rw [if_neg (by omega)]
  old o ho := by simp only [Place.extend, ho, if_true]; exact h.inside ho
  disjoint o o' hne := by
    simp only [Place.extend]
    split <;> split
    · exact h.apart o o' ‹_› ‹_› hne
    · have := h.inside (o := o) ‹_›; left; simp only; omega
    · have := h.inside (o := o') ‹_›; left; simp only; omega
    · left; simp only; omega

theorem Hosts.memR (h : Hosts S φ m M) :
    MemR (φ.extend m.objs.length M.objs.length) m.objs.length M.objs.length (m.setLog M.log) M where
  len := Nat.add_comm _ _
  le := Nat.le_refl _
  val o v hv := by
    have ho := (List.getElem?_eq_some_iff.1 hv).1
    change o < m.objs.length at ho
    simp only [Place.extend, ho, if_true]
    exact h.val o v hv
  log := rfl

theorem Hosts.logR (h : Hosts S φ m M) : LogR S m (m.setLog M.log) := ⟨rfl, h.log⟩

/-- Outcomes of the same step. -/
inductive HostOut {σ α : Type} (S : Nat → Bool) (ψ : Place) (f : α → α) :
    Out σ Mem α → Out σ Mem α → Prop
  | error (e) : HostOut S ψ f (.error e) (.error e)
  | ok (a ds) {m M} : Hosts S ψ m M → HostOut S ψ f (.ok (a, ⟨ds, m⟩)) (.ok (f a, ⟨ds, M⟩))

theorem HostOut.fuel_iff {σ α : Type} {ψ : Place} {f : α → α} {x y : Out σ Mem α}
    (h : HostOut S ψ f x y) : x = .error .fuel ↔ y = .error .fuel := by
  cases h <;> simp

theorem hostOut_of {σ α : Type} {ψ : Place} {k k' : Nat} (hψ : ψ.Ok k k') {f : α → α}
    {x y z : Out σ Mem α} (h1 : LogOut S x y) (h2 : MoveOut ψ k k' f y z) : HostOut S ψ f x z := by
  cases h1 with
  | error e => cases h2; exact .error e
  | ok a ds hl =>
    cases h2 with
    | ok _ _ hm =>
      refine .ok a ds ⟨fun o v hv => hm.val o v (by rw [hl.objs]; exact hv),
        fun o o' _ _ hne => hψ.disjoint o o' hne, ?_⟩
      rw [hm.log, hl.log]

variable {σ : Type} [DataSource σ]

/-- The placement after a step. -/
abbrev Place.next (φ : Place) (m M : Mem) : Place := φ.extend m.objs.length M.objs.length

theorem Place.next_eq {o : Nat} (ho : o < m.objs.length) : φ.next m M o = φ o := by
  simp only [Place.next, Place.extend, ho, if_true]

theorem Hosts.construct (h : Hosts S φ m M) (p : Prog) {d : Ref} (hd : d.Below m.objs.length)
    (ds : σ) :
    HostOut S (φ.next m M) (PState.move (φ.next m M)) (Abu.construct p d d ⟨ds, m⟩)
      (Abu.construct p (d.move φ) (d.move φ) ⟨ds, M⟩) := by
  have h1 := construct_logR p d d (ds := ds) h.logR
  have h2 := construct_move h.ok p d d (d.move φ) (ds := ds) h.memR
  rw [Ref.move_congr (φ := φ.next m M) (ψ := φ) (fun o ho => Place.next_eq ho) hd] at h2
  exact hostOut_of h.ok h1 h2

theorem Hosts.run (h : Hosts S φ m M) {env : Env} (he : env.ActsP (Act.Heeds S)) (n : Nat) (p : Prog)
    (hp : p.Acts (Act.Heeds S)) {d : Ref} (hd : d.Below m.objs.length) {st : PState}
    (hst : st.In (Ref.Below m.objs.length)) (ds : σ) :
    HostOut S (φ.next m M) (fun x => (x.1, x.2.move (φ.next m M))) (Abu.run env n p d d st ⟨ds, m⟩)
      (Abu.run env n p (d.move φ) (d.move φ) (st.move φ) ⟨ds, M⟩) := by
  have hφ : ∀ o, o < m.objs.length → φ.next m M o = φ o := fun o ho => Place.next_eq ho
  have h1 := consume_logR he n p d d st (ds := ds) hp h.logR
  have h2 := consume_move h.ok n p d d (d.move (φ.next m M)) st (ds := ds) (.inl rfl : BndR env _ p _ _)
    h.memR
  rw [Ref.move_congr hφ hd, PState.move_congr hφ hst] at h2
  exact hostOut_of h.ok h1 h2

theorem Hosts.evals (h : Hosts S φ m M) {env : Env} (he : env.ActsP (Act.Heeds S)) {p : Prog}
    (hp : p.Acts (Act.Heeds S)) {d : Ref} (hd : d.Below m.objs.length) {st : PState}
    (hst : st.In (Ref.Below m.objs.length)) {ds : σ} {o} (ho : Evals env p d d st ⟨ds, m⟩ o) :
    ∃ o', Evals env p (d.move φ) (d.move φ) (st.move φ) ⟨ds, M⟩ o' ∧
      HostOut S (φ.next m M) (fun x => (x.1, x.2.move (φ.next m M))) o o' := by
  obtain ⟨hn, n, rfl⟩ := ho
  have := h.run he n p hp hd hst ds
  exact ⟨_, ⟨fun h => hn (this.fuel_iff.2 h), n, rfl⟩, this⟩

theorem Hosts.evals' (h : Hosts S φ m M) {env : Env} (he : env.ActsP (Act.Heeds S)) {p : Prog}
    (hp : p.Acts (Act.Heeds S)) {d : Ref} (hd : d.Below m.objs.length) {st : PState}
    (hst : st.In (Ref.Below m.objs.length)) {ds : σ} {o}
    (ho : Evals env p (d.move φ) (d.move φ) (st.move φ) ⟨ds, M⟩ o) :
    ∃ o', Evals env p d d st ⟨ds, m⟩ o' ∧
      HostOut S (φ.next m M) (fun x => (x.1, x.2.move (φ.next m M))) o' o := by
  obtain ⟨hn, n, rfl⟩ := ho
  have := h.run he n p hp hd hst ds
  exact ⟨_, ⟨fun h => hn (this.fuel_iff.1 h), n, rfl⟩, this⟩

/-! ### What the step does to others -/

/-- The objects of `m` and those of `m2` are at separate places. -/
def Separate (φ : Place) (m : Mem) (φ2 : Place) (m2 : Mem) : Prop :=
  ∀ o o', o < m.objs.length → o' < m2.objs.length →
    (φ o).1 ≠ (φ2 o').1 ∨ Diverge (φ o).2 (φ2 o').2

theorem Diverge.symm {p q : List Nat} (h : Diverge p q) : Diverge q p := by
  induction h with
  | here h => exact .here (Ne.symm h)
  | there _ ih => exact .there ih

theorem Separate.symm {φ2 : Place} {m2 : Mem} (h : Separate φ m φ2 m2) : Separate φ2 m2 φ m :=
  fun o o' ho ho' => (h o' o ho' ho).imp Ne.symm Diverge.symm

variable {S2 : Nat → Bool} {φ2 : Place} {m2 : Mem}

/-- After the step the places are still separate. -/
theorem Separate.next (h2 : Hosts S2 φ2 m2 M) (h : Separate φ m φ2 m2) (m1 : Mem) :
    Separate (φ.next m M) m1 φ2 m2 := by
  intro o o' _ ho'
  by_cases ho : o < m.objs.length
  · rw [Place.next_eq ho]; exact h o o' ho ho'
  · have := h2.inside ho'
    left
    simp only [Place.next, Place.extend, ho, if_false]
    omega

theorem Hosts.other_construct (h2 : Hosts S2 φ2 m2 M) (hs : Separate φ m φ2 m2) {p : Prog} {d : Ref}
    (hd : d.Below m.objs.length) {ds : σ} {st ds1 M1}
    (h : Abu.construct p (d.move φ) (d.move φ) ⟨ds, M⟩ = .ok (st, ⟨ds1, M1⟩)) : Hosts S2 φ2 m2 M1 where
  val o v hv := by
    have ho := (List.getElem?_eq_some_iff.1 hv).1
    exact (construct_uses (misses_region _ _) (misses_keeps _ _ v)
      (.inl (Ref.move_misses (fun x hx => hs x o hx ho) hd)) (h2.val o v hv) h).2
  apart := h2.apart
  log := by
    rw [show M1.log.filter _ = _ from construct_logs (S := S2) h]
    exact h2.log

theorem Hosts.other_evals (h2 : Hosts S2 φ2 m2 M) (hs : Separate φ m φ2 m2) {env : Env} {A : Act → Prop}
    (hA : ∀ a, A a → S2 a.id = false) (he : env.ActsP A) {p : Prog} (hp : p.Acts A) {d : Ref}
    (hd : d.Below m.objs.length) {st : PState} (hst : st.In (Ref.Below m.objs.length)) {ds : σ}
    {y ds1 M1}
    (h : Evals env p (d.move φ) (d.move φ) (st.move φ) ⟨ds, M⟩ (.ok (y, ⟨ds1, M1⟩))) :
    Hosts S2 φ2 m2 M1 := by
  obtain ⟨_, n, h⟩ := h
  obtain ⟨r, st1⟩ := y
  exact {
    val := fun o v hv => by
      have ho := (List.getElem?_eq_some_iff.1 hv).1
      have hx : ∀ x, x < m.objs.length → _ := fun x hx => hs x o hx ho
      exact (run_uses (misses_region _ _) (misses_keeps _ _ v) n
        (.inl (Ref.move_misses hx hd)) (.inl (Ref.move_misses hx hd)) (PState.move_misses hx hst)
        (h2.val o v hv) h).2
    apart := h2.apart
    log := by
      rw [show M1.log.filter _ = _ from run_keepsLogs (S := S2) hA he n hp h]
      exact h2.log }

end
end Abu
