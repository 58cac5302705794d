import Verif.Proofs.Frame
import Verif.Proofs.Embed
import Verif.Proofs.NoTrace
import Verif.Proofs.Answers
/-
What one use of a parser does: to the input, to the rollback stack and to memory. Rules for every
parser class.
-/
namespace Abu

/-- A plain cursor over a text, and a memory. -/
def cw (t : List Ch) (i : Nat) (S : List Nat) (m : Mem) : World Cursor Mem := ⟨⟨t, i, S, true⟩, m⟩

/-- The constructor of `P` succeeds. -/
def Built (P : Prog) (dst bnd : Ref) (t : List Ch) (i : Nat) (m : Mem) (st : PState) (m1 : Mem) :
    Prop :=
  ∀ call S, exec call (mk P dst bnd) (cw t i S m) =
    .ok (st, cw t i (List.replicate (marks P) i ++ S) m1)

/-- The constructor of `P` fails. -/
def NotBuilt (P : Prog) (dst bnd : Ref) (t : List Ch) (i : Nat) (m : Mem) (e : Err) : Prop :=
  ∀ call S, exec call (mk P dst bnd) (cw t i S m) = .error e

section
variable {t : List Ch} {i : Nat}

theorem Built.bind {P dst bnd m st m1} (h : Built P dst bnd t i m st m1) {α : Type}
    (call) (k : PState → Cmd α) (S) : exec call ((mk P dst bnd).bind k) (cw t i S m) =
      exec call (k st) (cw t i (List.replicate (marks P) i ++ S) m1) := by
  rw [exec_bind, h call S]

theorem NotBuilt.bind {P dst bnd m e} (h : NotBuilt P dst bnd t i m e) {α : Type}
    (call) (k : PState → Cmd α) (S) : exec call ((mk P dst bnd).bind k) (cw t i S m) = .error e := by
  rw [exec_bind, h call S]

theorem Built.construct {P tys dst bnd m c m1}
    (h : Built P (m.alloc (.tup tys)).1 bnd t i (m.alloc (.tup tys)).2 c m1) :
    Built (.construct tys P) dst bnd t i m (.buffered (m.alloc (.tup tys)).1 c) m1 := by
  intro call S
  simp only [mk, exec, marks]
  exact (h.bind call (fun c => Cmd.pure (PState.buffered (m.alloc (.tup tys)).1 c)) S).trans rfl

theorem Built.action {P a dst bnd m c m1}
    (h : Built P (m.alloc a.landing).1 bnd t i (m.alloc a.landing).2 c m1) :
    Built (.action a P) dst bnd t i m (.buffered (m.alloc a.landing).1 c) m1 := by
  intro call S
  simp only [mk, exec, marks]
  exact (h.bind call (fun c => Cmd.pure (PState.buffered (m.alloc a.landing).1 c)) S).trans rfl

theorem Built.atomic {P dst bnd m c m1}
    (h : Built P (m.alloc dst.valueType).1 bnd t i (m.alloc dst.valueType).2 c m1) :
    Built (.atomic P) dst bnd t i m (.buffered (m.alloc dst.valueType).1 c) m1 := by
  intro call S
  simp only [mk, exec, marks]
  exact (h.bind call (fun c => Cmd.pure (PState.buffered (m.alloc dst.valueType).1 c)) S).trans rfl

theorem Built.lexeme {P dst bnd m c m1} (h : Built P dst bnd t i m c m1) :
    Built (.lexeme P) dst bnd t i m (.wrap c) m1 := by
  intro call S; simp only [mk, marks, h.bind]; rfl

theorem Built.withSkipper {P dst bnd m c m1} (h : Built P dst bnd t i m c m1) :
    Built (.withSkipper P) dst bnd t i m (.wrap c) m1 := by
  intro call S; simp only [mk, marks, h.bind]; rfl

theorem Built.discard {P dst bnd m c m1} (h : Built P .nil bnd t i m c m1) :
    Built (.discard P) dst bnd t i m (.wrap c) m1 := by
  intro call S; simp only [mk, marks, h.bind]; rfl

theorem Built.bindDst {P dst bnd m c m1} (h : Built P dst dst t i m c m1) :
    Built (.bindDst P) dst bnd t i m (.wrap c) m1 := by
  intro call S; simp only [mk, marks, h.bind]; rfl

theorem Built.clean {P dst bnd m c m1} (h : Built P dst bnd t i m c m1) :
    Built (.clean P) dst bnd t i m (.wrap c) m1 := by
  intro call S; simp only [mk, marks, h.bind]; rfl

theorem Built.opt {P dst bnd m c m1} (h : Built P dst bnd t i m c m1) :
    Built (.opt P) dst bnd t i m (.wrap c) m1 := by
  intro call S; simp only [mk, marks, h.bind]; rfl

theorem Built.not {P dst bnd m c m1} (h : Built P dst bnd t i m c m1) :
    Built (.not P) dst bnd t i m (.wrap c) m1 := by
  intro call S; simp only [mk, marks, h.bind]; rfl

theorem Built.rep {P mn mx dst bnd m c m1} (h : Built P dst bnd t i m c m1) :
    Built (.rep mn mx P) dst bnd t i m (.rep 0 c) m1 := by
  intro call S; simp only [mk, marks, h.bind]; rfl

theorem Built.list {P Q dst bnd m c m1} (h : Built P dst bnd t i m c m1) :
    Built (.list P Q) dst bnd t i m (.list false c) m1 := by
  intro call S; simp only [mk, marks, h.bind]; rfl

theorem Built.except {P Q dst bnd m c m1} (h : Built Q .nil bnd t i m c m1) :
    Built (.except P Q) dst bnd t i m (.except false c) m1 := by
  intro call S; simp only [mk, marks, h.bind]; rfl

theorem Built.alt {P Ps dst bnd m c m1} (h : Built P dst bnd t i m c m1) :
    Built (.alt (P :: Ps)) dst bnd t i m (.alt 0 c) m1 := by
  intro call S; simp only [mk, marks, h.bind]; rfl

theorem Built.seq {P Ps s ss dst d bnd m c m1} (hd : seqDst dst s = some d)
    (h : Built P d bnd t i m c m1) :
    Built (.seq (s :: ss) (P :: Ps)) dst bnd t i m (.seq 0 c) m1 := by
  intro call S; simp only [mk, marks, hd, h.bind]; rfl

theorem Built.recur {id sk dst bnd m} : Built (.recur id sk) dst bnd t i m .recurNone m := by
  intro call S; simp only [mk]; rfl

/-- A constructor pushes its rollback points at the current position, whatever was there before. -/
theorem mk_out (P : Prog) (dst bnd : Ref) (m : Mem) :
    (∃ e, NotBuilt P dst bnd t i m e) ∨ ∃ st m1, Built P dst bnd t i m st m1 := by
  fun_induction mk P dst bnd generalizing m
  case case5 b mn mx dst bnd | case6 b mn mx dst bnd =>
    simp only [NotBuilt, Built, mk, exec, cw, marks]
    show (∃ e, ∀ call S, _) ∨ _
    cases hz : m.zero dst with
    | error e => exact .inl ⟨e, fun call S => by simp only [Store.op, Mem.run, hz]⟩
    | ok m1 => exact .inr ⟨_, m1, fun call S => by simp only [Store.op, Mem.run, hz]; rfl⟩
  case case11 s ss p ps dst bnd d h ih =>
    rcases ih m with ⟨e, he⟩ | ⟨st, m1, hb⟩
    · exact .inl ⟨e, fun call S => by simp only [mk, h]; exact he.bind _ _ _⟩
    · exact .inr ⟨_, m1, fun call S => by simp only [mk, h, hb.bind]; rfl⟩
  case case10 s ss p ps dst bnd h =>
    exact .inl ⟨.noCompile, fun call S => by simp only [mk, h]; rfl⟩
  case case12 => exact .inl ⟨.noCompile, fun call S => by simp only [mk]; rfl⟩
  case case14 => exact .inl ⟨.noCompile, fun call S => by simp only [mk]; rfl⟩
  case case29 s p dst bnd ih1 ih2 =>
    rcases ih1 m with ⟨e, he⟩ | ⟨st, m1, hb⟩
    · exact .inl ⟨e, fun call S => by simp only [mk]; exact he.bind _ _ _⟩
    · rcases ih2 m1 with ⟨e, he⟩ | ⟨st2, m2, hb2⟩
      · exact .inl ⟨e, fun call S => by simp only [mk, hb.bind, he.bind]⟩
      · refine .inr ⟨.skip false st st2, m2, fun call S => ?_⟩
        simp only [mk, hb.bind, hb2.bind, exec, marks]
        rw [← List.append_assoc, List.replicate_append_replicate, Nat.add_comm]
  case case21 tys p d bnd ih =>
    rcases ih (m.alloc (.tup tys)).1 (m.alloc (.tup tys)).2 with ⟨e, he⟩ | ⟨st, m1, hb⟩
    · exact .inl ⟨e, fun call S => by simp only [mk, exec]; exact he.bind _ _ _⟩
    · exact .inr ⟨_, m1, hb.construct⟩
  case case22 a p d bnd ih =>
    rcases ih (m.alloc a.landing).1 (m.alloc a.landing).2 with ⟨e, he⟩ | ⟨st, m1, hb⟩
    · exact .inl ⟨e, fun call S => by simp only [mk, exec]; exact he.bind _ _ _⟩
    · exact .inr ⟨_, m1, hb.action⟩
  case case27 p d bnd ih =>
    rcases ih (m.alloc d.valueType).1 (m.alloc d.valueType).2 with ⟨e, he⟩ | ⟨st, m1, hb⟩
    · exact .inl ⟨e, fun call S => by simp only [mk, exec]; exact he.bind _ _ _⟩
    · exact .inr ⟨_, m1, hb.atomic⟩
  all_goals first
    | exact .inr ⟨_, m, fun call S => rfl⟩
    | (rename_i ih
       rcases ih m with ⟨e, he⟩ | ⟨st, m1, hb⟩
       · exact .inl ⟨e, fun call S => by simp only [mk]; exact he.bind _ _ _⟩
       · exact .inr ⟨_, m1, fun call S => by simp only [mk, hb.bind]; rfl⟩)

end

/-! ### Symbolic execution -/

/-- `consume` of an object in state `st` on a rollback stack with the elements `K` on top: they
become `L`. -/
def Runs (env : Env) (P : Prog) (dst bnd : Ref) (st : PState) (t : List Ch) (i : Nat) (K : List Nat)
    (m : Mem) (r : Res) (i' : Nat) (L : List Nat) (m' : Mem) : Prop :=
  ∃ n st', ∀ S, run env n P dst bnd st (cw t i (K ++ S) m) = .ok ((r, st'), cw t i' (L ++ S) m')

/-- The rest of an iteration of `consume`, and the following iterations. -/
def Fin (env : Env) (P : Prog) (dst bnd : Ref) (x : Cmd Step) (t : List Ch) (i : Nat) (K : List Nat)
    (m : Mem) (r : Res) (i' : Nat) (L : List Nat) (m' : Mem) : Prop :=
  ∃ n st', ∀ S, andThen env n P dst bnd (exec (run env n) x (cw t i (K ++ S) m)) =
    .ok ((r, st'), cw t i' (L ++ S) m')

/-- An object is constructed and its `consume` called. -/
def Does (env : Env) (P : Prog) (dst bnd : Ref) (t : List Ch) (i : Nat) (m : Mem) (r : Res)
    (i' : Nat) (L : List Nat) (m' : Mem) : Prop :=
  ∃ st m1, Built P dst bnd t i m st m1 ∧
    Runs env P dst bnd st t i (List.replicate (marks P) i) m1 r i' L m'

section
variable {env : Env} {P : Prog} {dst bnd : Ref} {t : List Ch} {i : Nat} {K : List Nat} {m : Mem}
  {r : Res} {i' : Nat} {L : List Nat} {m' : Mem}

theorem andThen_mono {n n' : Nat} (hn : n ≤ n') {x : Cmd Step} {w : World Cursor Mem} {y}
    (h : andThen env n P dst bnd (exec (run env n) x w) = .ok y) :
    andThen env n' P dst bnd (exec (run env n') x w) = .ok y := by
  have hx : exec (run env n) x w ≠ .error .fuel := by
    intro hx; rw [hx] at h; cases h
  rw [exec_mono (run_mono env hn) _ _ hx]
  cases he : exec (run env n) x w with
  | error e => rw [he] at h; cases h
  | ok z =>
    obtain ⟨s, w'⟩ := z
    rw [he] at h
    cases s with
    | ret r st' => exact h
    | cont st' =>
      exact (run_mono env hn _ _ _ _ _ (by rw [show run env n P dst bnd st' w' = .ok y from h]; simp)).trans h

theorem Runs.body {st} (h : Fin env P dst bnd (body env P dst bnd st) t i K m r i' L m') :
    Runs env P dst bnd st t i K m r i' L m' := by
  obtain ⟨n, st', h⟩ := h
  exact ⟨n + 1, st', fun S => by rw [run_succ_andThen, h S]⟩

theorem Fin.ret {st} : Fin env P dst bnd (retS r st) t i K m r i K m := ⟨0, st, fun _ => rfl⟩

theorem Fin.cont {st} (h : Runs env P dst bnd st t i K m r i' L m') :
    Fin env P dst bnd (contS st) t i K m r i' L m' := by
  obtain ⟨n, st', h⟩ := h
  exact ⟨n, st', h⟩

theorem Fin.mk {p d b c m1} {k : PState → Cmd Step} (hb : Built p d b t i m c m1)
    (h : Fin env P dst bnd (k c) t i (List.replicate (marks p) i ++ K) m1 r i' L m') :
    Fin env P dst bnd ((mk p d b).bind k) t i K m r i' L m' := by
  obtain ⟨n, st', h⟩ := h
  refine ⟨n, st', fun S => ?_⟩
  rw [hb.bind, ← List.append_assoc]
  exact h S

theorem Fin.prepare {k} (h : Fin env P dst bnd k t i (i :: K) m r i' L m') :
    Fin env P dst bnd (.prepare k) t i K m r i' L m' := h

theorem Fin.commit {k a} (h : Fin env P dst bnd k t a K m r i' L m') :
    Fin env P dst bnd (.commit k) t i (a :: K) m r i' L m' := h

theorem Fin.cancel {k a} (h : Fin env P dst bnd k t i K m r i' L m') :
    Fin env P dst bnd (.cancel k) t i (a :: K) m r i' L m' := h

theorem Fin.mem {k o m1} (ho : m.run o = .ok m1) (h : Fin env P dst bnd k t i K m1 r i' L m') :
    Fin env P dst bnd (.mem o k) t i K m r i' L m' := by
  obtain ⟨n, st', h⟩ := h
  refine ⟨n, st', fun S => ?_⟩
  rw [← h S]
  simp only [exec, cw, Store.op, ho]

theorem Fin.call {p d b c k r1 i1 K1 E m1} (hc : Runs env p d b c t i K m r1 i1 K1 m1)
    (h : ∀ c', Fin env P dst bnd (k r1 c') t i1 (K1 ++ E) m1 r i' L m') :
    Fin env P dst bnd (.call p d b c k) t i (K ++ E) m r i' L m' := by
  obtain ⟨n1, c', hc⟩ := hc
  obtain ⟨n2, st', h⟩ := h c'
  refine ⟨max n1 n2, st', fun S => ?_⟩
  have h1 := run_mono env (Nat.le_max_left n1 n2) _ _ _ _ _
    (by rw [hc (E ++ S)]; simp)
  rw [hc] at h1
  have h2 := h S
  rw [List.append_assoc] at h2
  have h3 := andThen_mono (Nat.le_max_right n1 n2) h2
  simp only [exec, List.append_assoc, h1]
  exact h3

/-- A run on an empty rollback stack is a run on any other. -/
theorem Runs.of_run {n st a w'} (h : run env n P dst bnd st (cw t i K m) = .ok (a, w')) :
    ∃ i' L m', w' = cw t i' L m' ∧ Runs env P dst bnd st t i K m a.1 i' L m' := by
  have ht := run_text env n P dst bnd st _ h
  have hf := run_final env n P dst bnd st _ h
  obtain ⟨⟨t', i', L, f⟩, m'⟩ := w'
  obtain rfl : t' = t := ht
  obtain rfl : f = true := hf
  refine ⟨i', L, m', rfl, n, a.2, fun S => ?_⟩
  have hfr := run_frame (d := 0) (S0 := S) env n P dst bnd st (s := ⟨t', i, K, true⟩)
    (c := ⟨t', i, K ++ S, true⟩) m ⟨rfl, rfl, by simp, rfl⟩
  unfold cw at h ⊢
  rw [h] at hfr
  generalize run env n P dst bnd st (⟨⟨t', i, K ++ S, true⟩, m⟩ : World Cursor Mem) = y at hfr
  cases hfr with
  | ok _ hr =>
    obtain ⟨h1, h2, h3, h4⟩ := hr
    rename_i c
    obtain ⟨ct, cp, cs, cf⟩ := c
    simp only [List.drop_zero, Nat.add_zero, List.map_id_fun', id_eq] at h1 h2 h3 h4
    subst h1 h2 h3 h4
    rfl

theorem Does.intro {st w1 n a w'} (hc : construct P dst bnd (cw t i [] m) = .ok (st, w1))
    (h : run env n P dst bnd st w1 = .ok (a, w')) :
    ∃ i' L m', w' = cw t i' L m' ∧ Does env P dst bnd t i m a.1 i' L m' := by
  rcases mk_out (t := t) (i := i) P dst bnd m with ⟨e, he⟩ | ⟨st1, m1, hb⟩
  · rw [construct, he] at hc; cases hc
  · have := hb (fun _ _ _ _ _ => .error .stuck) []
    rw [construct, this] at hc
    cases hc
    rw [List.append_nil] at h
    obtain ⟨i', L, m', rfl, hr⟩ := Runs.of_run h
    exact ⟨i', L, m', rfl, _, _, hb, hr⟩

end
end Abu
