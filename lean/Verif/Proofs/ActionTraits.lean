import Verif.Spec.ActionTraits
/-
Helpers for C84.
-/
namespace Abu

theorem ActFn.Form.compiles {f : ActFn} {u : ActUse} (h : f.Form u) : f.Compiles u := by
  cases h with
  | function =>
    exact ⟨_, rfl, rfl, rfl, rfl, trivial, rfl, nofun⟩
  | lambda =>
    exact ⟨_, rfl, rfl, rfl, rfl, rfl, rfl, nofun⟩
  | @functionValue t r ht =>
    refine ⟨r, ?_⟩
    cases t <;> first
      | exact absurd rfl ht
      | (refine ⟨rfl, rfl, rfl, rfl, trivial, rfl, ?_⟩
         intro x hx
         cases List.mem_singleton.mp hx
         rfl)
  | @lambdaValue t r ht =>
    refine ⟨r, ?_⟩
    cases t <;> first
      | exact absurd rfl ht
      | (refine ⟨rfl, rfl, rfl, rfl, rfl, rfl, ?_⟩
         intro x hx
         cases List.mem_singleton.mp hx
         rfl)
  | @lambdaBoth t r =>
    refine ⟨r, rfl, rfl, rfl, rfl, rfl, rfl, ?_⟩
    intro x hx
    rcases List.mem_cons.mp hx with rfl | hx
    · rfl
    · cases List.mem_singleton.mp hx
      trivial
  | @lambdaBound n r =>
    refine ⟨r, rfl, rfl, rfl, rfl, rfl, rfl, ?_⟩
    intro x hx
    cases List.mem_singleton.mp hx
    trivial
  | @lambdaNil n m r hm =>
    refine ⟨r, ?_⟩
    cases m <;> first
      | exact absurd rfl hm
      | (refine ⟨rfl, rfl, rfl, rfl, rfl, rfl, ?_⟩
         intro x hx
         cases List.mem_singleton.mp hx
         rfl)
  | @functionNil n m r hm =>
    refine ⟨r, ?_⟩
    cases m <;> first
      | exact absurd rfl hm
      | (refine ⟨rfl, rfl, rfl, rfl, trivial, rfl, ?_⟩
         intro x hx
         cases List.mem_singleton.mp hx
         rfl)

/-- What becomes of a function is determined. -/
theorem ActFn.Compiles.unique {f : ActFn} {u v : ActUse} (hu : f.Compiles u) (hv : f.Compiles v) :
    u = v := by
  obtain ⟨r, h1, h2, h3, h4, _⟩ := hu
  obtain ⟨r', h1', h2', h3', h4', _⟩ := hv
  rw [h1] at h1'
  rw [h2] at h2'
  cases h1'
  obtain ⟨lu, vu, au⟩ := u
  obtain ⟨lv, vv, av⟩ := v
  simp only [Option.some.injEq, Prod.mk.injEq, true_and] at h2'
  subst h2'
  simp only at h3 h3' h4 h4'
  rw [h3, h3', h4, h4']

theorem ActFn.form_of_pointer {n : Bool} {ps : List (Passing × Ty)} {r : Option Ty} {u : ActUse}
    (h : (ActFn.pointer n ps r).Compiles u) : ∃ v, (ActFn.pointer n ps r).Form v := by
  obtain ⟨r', h1, h2, -, h4, -, hlen, htake⟩ := h
  match ps with
  | [] =>
    cases n with
    | true => cases h1
    | false => exact ⟨_, .function⟩
  | [(m, t)] =>
    cases m with
    | ref =>
      rw [h4] at hlen
      cases hlen
    | value =>
      cases t <;> first
        | exact ⟨_, .functionNil nofun⟩
        | (cases n with
            | true => cases h1
            | false => exact ⟨_, .functionValue nofun⟩)
    | constRef =>
      cases t <;> first
        | exact ⟨_, .functionNil nofun⟩
        | (cases n <;> cases h2)
    | rvalueRef =>
      cases t <;> first
        | exact ⟨_, .functionNil nofun⟩
        | (cases n <;> cases h2)
  | (m, t) :: (m', t') :: ps =>
    exfalso
    cases ps with
    | nil =>
      cases m <;> cases m' <;> cases t' <;> first
        | cases h2
        | (rw [h4] at hlen; cases hlen)
    | cons a ps =>
      rw [h4] at hlen
      cases hlen

theorem ActFn.form_of_object {c n : Bool} {ps : List ActParam} {r : Option Ty} {u : ActUse}
    (h : (ActFn.object c n ps r).Compiles u) : ∃ v, (ActFn.object c n ps r).Form v := by
  obtain ⟨r', h1, h2, -, h4, hc, hlen, htake⟩ := h
  cases (hc : c = true)
  match ps with
  | [] =>
    cases n with
    | true => cases h1
    | false => exact ⟨_, .lambda⟩
  | [.auto] => exact ⟨_, .lambdaBound⟩
  | [.autoRef] => cases h1
  | [.plain m t] =>
    cases m with
    | ref =>
      rw [h4] at hlen
      cases hlen
    | value =>
      cases t <;> first
        | exact ⟨_, .lambdaNil nofun⟩
        | (cases n with
            | true => cases h1
            | false => exact ⟨_, .lambdaValue nofun⟩)
    | constRef =>
      cases t <;> first
        | exact ⟨_, .lambdaNil nofun⟩
        | (cases n <;> cases h2)
    | rvalueRef =>
      cases t <;> first
        | exact ⟨_, .lambdaNil nofun⟩
        | (cases n <;> cases h2)
  | [p, q] =>
    cases q with
    | autoRef =>
      rw [h4] at hlen
      cases p with
      | plain m t => cases m <;> cases hlen
      | auto => cases hlen
      | autoRef => cases hlen
    | auto =>
      cases p with
      | auto => cases h2
      | autoRef => rw [h4] at hlen; cases hlen
      | plain m t =>
        cases n with
        | true => cases m <;> first | cases h2 | (rw [h4] at hlen; cases hlen)
        | false =>
          cases m <;> first
            | exact ⟨_, .lambdaBoth⟩
            | cases h2
            | (rw [h4] at hlen; cases hlen)
    | plain m' t' =>
      exfalso
      cases p with
      | auto => cases m' <;> cases t' <;> first | cases h2 | (rw [h4] at hlen; cases hlen)
      | autoRef => rw [h4] at hlen; cases m' <;> cases t' <;> cases hlen
      | plain m t =>
        cases m <;> cases m' <;> cases t' <;> first
          | cases h2
          | (rw [h4] at hlen; cases hlen)
  | p :: q :: s :: ps =>
    rw [h4] at hlen
    cases hlen

theorem ActFn.compiles_iff (f : ActFn) (u : ActUse) : f.Compiles u ↔ f.Form u := by
  refine ⟨fun h => ?_, ActFn.Form.compiles⟩
  have : ∃ v, f.Form v := by
    cases f with
    | pointer => exact ActFn.form_of_pointer h
    | object => exact ActFn.form_of_object h
  obtain ⟨v, hv⟩ := this
  cases h.unique hv.compiles
  exact hv

end Abu
