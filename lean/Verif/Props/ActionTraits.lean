import Verif.Proofs.ActionTraits
/-
C84: which functions can be actions, and what they are called with.
-/
namespace Abu

/-- C84: the functions that can be actions, and what becomes of each. -/
theorem C84_exactly (f : ActFn) (u : ActUse) : f.Compiles u ↔ f.Form u :=
  ActFn.compiles_iff f u

-- `[](char, auto p) -> void { p.bound_dst.get() += 1; }` (tests/patterns/test_bind_dst.cpp:15)
example : (ActFn.object true false [.plain .value (.num (.signed 8)), .auto] none).Compiles
    ⟨.num (.signed 8), true, [.value (.num (.signed 8)), .bound]⟩ :=
  (C84_exactly _ _).mpr .lambdaBoth

/-- What docs/guide/05_actions.md says: a function of at most one parameter can be an action, and is called
with what it asks for. False: see the `C84_refuted` theorems. -/
def C84_statement : Prop :=
  ∀ f : ActFn, f.params.length ≤ 1 → ∃ u, f.Compiles u ∧ f.AsDocumented u

/-- C84 (partial: not `noexcept`, a call operator that is `const`, a parameter that is passed by value): it can
be an action, and is called with what it asks for. -/
theorem C84_as_documented_partial (f : ActFn)
    (hf : (∃ ps r, f = .pointer false ps r) ∨ ∃ ps r, f = .object true false ps r)
    (hp : f.params = [] ∨ ∃ t, t ≠ .nil ∧ f.params = [.plain .value t]) :
    ∃ u, f.Compiles u ∧ f.AsDocumented u := by
  have doc : ∀ u : ActUse, (f.params = [] → u.args = []) →
      (∀ m t, f.params = [.plain m t] → u.landing = t ∧ u.args = [.value t]) →
      u.void = f.result.isNone → f.AsDocumented u := fun u h0 h1 hr =>
    ⟨h0, h1, by rw [hr]; cases f.result <;> simp⟩
  rcases hf with ⟨ps, r, rfl⟩ | ⟨ps, r, rfl⟩
  · rcases hp with hp | ⟨t, ht, hp⟩
    · cases ps with
      | cons => cases hp
      | nil => exact ⟨_, (C84_exactly _ _).mpr .function, doc _ (fun _ => rfl) nofun rfl⟩
    · match ps, hp with
      | [(_, _)], hp =>
        cases hp
        refine ⟨_, (C84_exactly _ _).mpr (.functionValue ht), doc _ nofun ?_ rfl⟩
        intro m t' h
        cases h
        exact ⟨rfl, rfl⟩
  · rcases hp with hp | ⟨t, ht, hp⟩
    · cases (hp : ps = [])
      exact ⟨_, (C84_exactly _ _).mpr .lambda, doc _ (fun _ => rfl) nofun rfl⟩
    · cases (hp : ps = _)
      refine ⟨_, (C84_exactly _ _).mpr (.lambdaValue ht), doc _ nofun ?_ rfl⟩
      intro m t' h
      cases h
      exact ⟨rfl, rfl⟩

-- `[](unsigned char c) { return std::toupper(c); }` (docs/guide/05_actions.md:29)
example : ∃ u, (ActFn.object true false [.plain .value (.num (.unsigned 8))] (some (.num (.signed 32)))).Compiles u ∧
    (ActFn.object true false [.plain .value (.num (.unsigned 8))] (some (.num (.signed 32)))).AsDocumented u :=
  C84_as_documented_partial _ (.inr ⟨_, _, rfl⟩) (.inr ⟨.num (.unsigned 8), nofun, rfl⟩)

/-- C84 is false: a parameter that is a reference, `[](std::string const& s) { … }`, does not compile. -/
theorem C84_refuted : ¬ C84_statement ∧
    ∀ (c n : Bool) (m : Passing) (t : Ty) (r : Option Ty) (u : ActUse), m ≠ .value → t ≠ .nil →
      ¬ (ActFn.object c n [.plain m t] r).Compiles u := by
  have h : ∀ (c n : Bool) (m : Passing) (t : Ty) (r : Option Ty) (u : ActUse), m ≠ .value → t ≠ .nil →
      ¬ (ActFn.object c n [.plain m t] r).Compiles u := by
    intro c n m t r u hm ht hu
    rw [C84_exactly] at hu
    cases hu with
    | lambdaValue => exact hm rfl
    | lambdaNil => exact ht rfl
  refine ⟨fun hs => ?_, h⟩
  obtain ⟨u, hu, -⟩ := hs (.object true false [.plain .constRef (.coll (.num (.signed 8)))] none) Nat.le.refl
  exact h true false .constRef (.coll (.num (.signed 8))) none u nofun nofun hu

/-- C84 is false: a call operator that is not `const`, such as that of a `mutable` lambda, does not
compile. -/
theorem C84_refuted_mutable (n : Bool) (ps : List ActParam) (r : Option Ty) (u : ActUse) :
    ¬ (ActFn.object false n ps r).Compiles u := by
  rw [C84_exactly]
  nofun

/-- C84 is false: a function that is `noexcept` does not compile, unless it has a single parameter that is
`auto` or `Nil`. -/
theorem C84_refuted_noexcept (ps : List ActParam) (r : Option Ty) (u : ActUse) :
    (∀ c, (ActFn.object c true ps r).Compiles u → ps = [.auto] ∨ ∃ m, ps = [.plain m .nil]) ∧
      ∀ qs, (ActFn.pointer true qs r).Compiles u → ∃ m, qs = [(m, .nil)] := by
  constructor
  · intro c h
    rw [C84_exactly] at h
    cases h with
    | lambdaBound => exact .inl rfl
    | lambdaNil => exact .inr ⟨_, rfl⟩
  · intro qs h
    rw [C84_exactly] at h
    cases h with
    | functionNil => exact ⟨_, rfl⟩

/-- C84: of a single parameter that is `auto`, the function is given the bound destination, and the value of
the operand is lost. -/
theorem C84_auto_is_bound (n : Bool) (r : Option Ty) (u : ActUse) :
    (ActFn.object true n [.auto] r).Compiles u ↔ u = ⟨.nil, r.isNone, [.bound]⟩ := by
  rw [C84_exactly]
  constructor
  · intro h
    cases h
    rfl
  · rintro rfl
    exact .lambdaBound

/-- C84: two parameters only compile as a value and an `auto`, of a lambda. -/
theorem C84_two_parameters (f : ActFn) (p q : ActParam) (u : ActUse) (hp : f.params = [p, q])
    (h : f.Compiles u) :
    ∃ t r, f = .object true false [.plain .value t, .auto] r ∧ u = ⟨t, r.isNone, [.value t, .bound]⟩ := by
  rw [C84_exactly] at h
  cases h <;> cases hp
  exact ⟨_, _, rfl, rfl⟩

-- `[](int v, auto p) -> void { p.bound_dst.get() = v; }` (examples/math_expression/main.cpp:19)
example : (ActFn.object true false [.plain .value (.num (.signed 32)), .auto] none).Compiles
    ⟨.num (.signed 32), true, [.value (.num (.signed 32)), .bound]⟩ :=
  (C84_exactly _ _).mpr .lambdaBoth

/-- C84: three or more parameters do not compile. -/
theorem C84_three_parameters (f : ActFn) (u : ActUse) (h : f.Compiles u) : f.params.length ≤ 2 := by
  rw [C84_exactly] at h
  cases h <;> simp [ActFn.params]

/-- C84: an action is called with as many arguments as it has parameters; the value among them, if any, is
first, and is that of the landing; without it the operand is parsed into nothing. -/
theorem C84_arguments (f : ActFn) (u : ActUse) (h : f.Compiles u) :
    u.args.length = f.params.length ∧
      (u.args = [] ∧ u.landing = .nil ∨ u.args = [.value u.landing] ∨
        u.args = [.bound] ∧ u.landing = .nil ∨ u.args = [.value u.landing, .bound]) ∧
      (u.void = true ↔ f.result = none) := by
  rw [C84_exactly] at h
  cases h <;> refine ⟨rfl, ?_, ?_⟩
  any_goals exact Option.isNone_iff_eq_none
  · exact .inl ⟨rfl, rfl⟩
  · exact .inr (.inl rfl)
  · exact .inl ⟨rfl, rfl⟩
  · exact .inr (.inl rfl)
  · exact .inr (.inr (.inr rfl))
  all_goals exact .inr (.inr (.inl ⟨rfl, rfl⟩))

/-- C84: every action of the other properties is one of a function that compiles: type of the landing,
whether something is returned and whether there is an `ActionParam` can be chosen freely. -/
theorem C84_every_action (a : Act) :
    ∃ f u, ActFn.Compiles f u ∧ u.landing = a.landing ∧ u.void = a.void ∧
      (.bound ∈ u.args ↔ a.param = true) := by
  have hv : ∀ b : Bool, ∃ r : Option Ty, r.isNone = b := fun b => by
    cases b
    · exact ⟨some .nil, rfl⟩
    · exact ⟨none, rfl⟩
  obtain ⟨r, hr⟩ := hv a.void
  cases hp : a.param with
  | true =>
    exact ⟨_, _, (C84_exactly _ _).mpr (.lambdaBoth (t := a.landing) (r := r)), rfl, hr,
      ⟨fun _ => rfl, fun _ => .tail _ (.head _)⟩⟩
  | false =>
    by_cases hl : a.landing = .nil
    · refine ⟨_, _, (C84_exactly _ _).mpr (.lambda (r := r)), hl.symm, hr, ?_⟩
      simp
    · refine ⟨_, _, (C84_exactly _ _).mpr (.lambdaValue (t := a.landing) (r := r) hl), rfl, hr, ?_⟩
      simp

end Abu
