import Verif.Proofs.Construct
import Verif.Proofs.Eval
import Verif.Proofs.Overwrite
/-
Where actions with an `ActionParam` write.
-/
namespace Abu

section
variable {σ : Type} [DataSource σ] {env : Env} {P : Prog} {dst bnd : Ref}

theorem run_bindDst (n : Nat) (c : PState) (w : World σ Mem) :
    run env (n + 1) (.bindDst P) dst bnd (.wrap c) w =
      match run env n P dst dst c w with
      | .error e => .error e
      | .ok ((r, c'), w1) => .ok ((r, .wrap c'), w1) := by
  rw [run]
  simp only [body, exec]
  cases run env n P dst dst c w <;> rfl

theorem evals_bindDst {c : PState} {w : World σ Mem} {r st' w'} :
    Evals env (.bindDst P) dst bnd (.wrap c) w (.ok ((r, st'), w')) ↔
      ∃ c', Evals env P dst dst c w (.ok ((r, c'), w')) ∧ st' = .wrap c' := by
  constructor
  · rintro ⟨_, n, hn⟩
    cases n with
    | zero => cases hn
    | succ n =>
      rw [run_bindDst] at hn
      cases hr : run env n P dst dst c w with
      | error e => rw [hr] at hn; cases hn
      | ok x =>
        obtain ⟨⟨r1, c'⟩, w1⟩ := x
        rw [hr] at hn
        cases hn
        exact ⟨c', ⟨by simp, n, hr⟩, rfl⟩
  · rintro ⟨c', ⟨_, n, hn⟩, rfl⟩
    refine ⟨by simp, n + 1, ?_⟩
    rw [run_bindDst, hn]

theorem construct_bindDst {w : World σ Mem} {x} :
    construct (.bindDst P) dst bnd w = .ok x ↔
      ∃ c w1, construct P dst dst w = .ok (c, w1) ∧ x = (.wrap c, w1) := by
  unfold construct
  simp only [mk, exec_bind]
  cases exec _ (mk P dst dst) w with
  | error e => simp
  | ok y =>
    obtain ⟨c, w1⟩ := y
    constructor
    · intro h; cases h; exact ⟨c, w1, rfl, rfl⟩
    · rintro ⟨c', w1', h, rfl⟩; cases h; rfl

theorem resumes_bindDst {c : PState} {w : World σ Mem} {r w'} :
    Resumes env (.bindDst P) dst bnd (.wrap c) w r w' ↔ Resumes env P dst dst c w r w' := by
  constructor
  · intro h
    generalize hst : PState.wrap c = st at h
    induction h generalizing c with
    | last h hr =>
      subst hst
      obtain ⟨c', h1, _⟩ := evals_bindDst.1 h
      exact .last h1 hr
    | more h _ ih =>
      subst hst
      obtain ⟨c', h1, rfl⟩ := evals_bindDst.1 h
      exact .more h1 (ih rfl)
  · intro h
    induction h with
    | last h hr => exact .last (evals_bindDst.2 ⟨_, h, rfl⟩) hr
    | more h _ ih => exact .more (evals_bindDst.2 ⟨_, h, rfl⟩) ih

theorem waits_bindDst {c : PState} {w w' : World σ Mem} :
    Waits env (.bindDst P) dst bnd (.wrap c) w w' ↔ Waits env P dst dst c w w' := by
  constructor
  · intro h
    generalize hst : PState.wrap c = st at h
    induction h generalizing c with
    | none => exact .none
    | more h _ ih =>
      subst hst
      obtain ⟨c', h1, rfl⟩ := evals_bindDst.1 h
      exact .more h1 (ih rfl)
  · intro h
    induction h with
    | none => exact .none
    | more h _ ih => exact .more (evals_bindDst.2 ⟨_, h, rfl⟩) ih

theorem used_bindDst {w : World σ Mem} {r w'} :
    Used env (.bindDst P) dst bnd w r w' ↔ Used env P dst dst w r w' := by
  constructor
  · rintro ⟨st, w0, ds, hc, hr⟩
    obtain ⟨c, w1, hc1, he⟩ := construct_bindDst.1 hc
    cases he
    exact ⟨_, _, ds, hc1, resumes_bindDst.1 hr⟩
  · rintro ⟨c, w0, ds, hc, hr⟩
    exact ⟨_, _, ds, construct_bindDst.2 ⟨c, w0, hc, rfl⟩, resumes_bindDst.2 hr⟩

theorem suspended_bindDst {w w' : World σ Mem} :
    Suspended env (.bindDst P) dst bnd w w' ↔ Suspended env P dst dst w w' := by
  constructor
  · rintro ⟨st, w0, ds, hc, hr⟩
    obtain ⟨c, w1, hc1, he⟩ := construct_bindDst.1 hc
    cases he
    exact ⟨_, _, ds, hc1, waits_bindDst.1 hr⟩
  · rintro ⟨c, w0, ds, hc, hr⟩
    exact ⟨_, _, ds, construct_bindDst.2 ⟨c, w0, hc, rfl⟩, waits_bindDst.2 hr⟩

/-- Only the destination, the bound destination and new objects are written. -/
theorem Used.confined {w w' : World σ Mem} {r o q v} (h : Used env P dst bnd w r w')
    (hd : dst.Misses o q) (hb : bnd.Misses o q) (hv : w.mem.look o q = .ok v) :
    w'.mem.look o q = .ok v := by
  obtain ⟨st, w1, ds, hc, hr⟩ := h
  have hJ := misses_keeps o q v
  have hS := misses_region o q
  obtain ⟨h1, h2⟩ := construct_uses hS hJ (.inl hd) hv hc
  exact Resumes.uses hS hJ hr (.inl hd) (.inl hb) h1 h2

theorem Suspended.confined {w w' : World σ Mem} {o q v} (h : Suspended env P dst bnd w w')
    (hd : dst.Misses o q) (hb : bnd.Misses o q) (hv : w.mem.look o q = .ok v) :
    w'.mem.look o q = .ok v := by
  obtain ⟨st, w1, ds, hc, hr⟩ := h
  have hJ := misses_keeps o q v
  have hS := misses_region o q
  obtain ⟨h1, h2⟩ := construct_uses hS hJ (.inl hd) hv hc
  exact Waits.uses hS hJ hr (.inl hd) (.inl hb) h1 h2

end

/-- An action with an `ActionParam`: what it sees and writes. -/
theorem act_param {m m' : Mem} {a : Act} {l d o q ty} (h : m.act a l d (.at o q ty) = .ok m')
    (hp : a.param = true) (hd : a.void = false → d.Misses o q) :
    ∃ v b, m.read l = .ok v ∧ m.look o q = .ok b ∧
      m'.look o q = .ok (a.fn m.log v b).2 ∧ m'.log = m.log ++ [⟨a.id, v⟩] := by
  obtain ⟨v, hv, hne, hlog⟩ := act_log h
  rw [act_eq, hv] at h
  have h : m.actWith a d (.at o q ty) v (m.read (.at o q ty)) = .ok m' := by
    cases v <;> first | exact absurd rfl hne | simpa [hp] using h
  unfold Mem.actWith at h
  split at h
  · cases h
  · rename_i b hb
    split at h
    · cases h
    · rename_i m2 hw
      have h2 : m2.look o q = .ok (a.fn m.log v b).2 := by
        rw [hp] at hw
        exact modify_const (fun _ _ h => overwrite_eq h) hw
      refine ⟨v, b, hv, hb, ?_, hlog⟩
      split at h
      · cases h; exact h2
      · rename_i hvoid
        rw [assign_look (hd (by simpa using hvoid)) h, h2]

end Abu
