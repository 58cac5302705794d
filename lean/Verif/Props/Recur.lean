import Verif.Proofs.Recur
import Verif.Props.GuideNested
/-
C55: what `Recur` objects stand for.
-/
namespace Abu

/-! ### C55 -/

/-- C55: after any history of operations, a `Recur` variable stands for the pattern that was last
defined through any copy of it, whatever happened to other objects before, between and after; if
there is none, or the pool is gone, its use is undefined. -/
theorem C55_last_definition (ops : List ROp) (s : RState) (h : RState.start.ops ops = .ok s)
    (r o k : Nat) (hr : (varObjects [] 0 ops)[r]? = some o) (hk : (objectPools ops)[o]? = some k) :
    s.vars[r]? = some o ∧
    (ROp.dropPool k ∈ ops → s.operand o = .error .ubDangling) ∧
    (ROp.dropPool k ∉ ops → ∀ p, lastDefinition (varObjects [] 0 ops) o ops none = some p →
      s.operand o = .ok p) ∧
    (ROp.dropPool k ∉ ops → lastDefinition (varObjects [] 0 ops) o ops none = none →
      s.operand o = .error .ubRecur) := by
  have hv := ops_vars h
  have hs := ops_slots h
  simp only [RState.start, List.map_nil, List.nil_append, List.length_nil] at hv hs
  refine ⟨by rw [hv]; exact hr, ?_⟩
  have hlt : o < s.slots.length := by
    have := (List.getElem?_eq_some_iff.1 hk).1
    rw [← hs] at this
    simpa using this
  have hpay := ops_payload h o hlt
  have hpool : (s.slots[o]'hlt).pool = k := by
    have : (s.slots.map RSlot.pool)[o]? = some k := by rw [hs]; exact hk
    simpa [List.getElem?_eq_getElem hlt] using this
  have hp := ops_pool h (k := k) (by simp [RState.start]) (objectPools_lt h (List.mem_of_getElem? hk))
  rw [hv] at hpay
  simp only [RState.start, List.getElem?_nil, Option.bind_none, List.getElem?_eq_getElem hlt,
    Option.bind_some] at hpay
  rw [RState.operand]
  simp only [List.getElem?_eq_getElem hlt, hpool, hpay]
  refine ⟨fun hd => if_neg fun hx => hp.1 hx hd, fun hd p hl => ?_, fun hd hl => ?_⟩
  · rw [if_pos (hp.2 hd), hl]
  · rw [if_pos (hp.2 hd), hl]

/-- C55: every variable has an object, and every object a pool. -/
theorem C55_every_variable_has_an_object (ops : List ROp) (s : RState)
    (h : RState.start.ops ops = .ok s) (r : Nat) (hr : r < s.vars.length) :
    ∃ o k, (varObjects [] 0 ops)[r]? = some o ∧ (objectPools ops)[o]? = some k := by
  have hv := ops_vars h
  simp only [RState.start, List.length_nil] at hv
  rw [hv] at hr
  refine ⟨_, _, List.getElem?_eq_getElem hr, List.getElem?_eq_getElem ?_⟩
  have := varObjects_lt (vars := []) (n := 0) (by simp) (List.getElem_mem hr)
  omega

/-- C55: a history of operations goes without error exactly if every operation in it makes sense
after the ones before it: it names pools and variables that exist, and defines objects only while
their pool exists. -/
theorem C55_histories_without_error (ops : List ROp) : (∃ s, RState.start.ops ops = .ok s) ↔
    ∀ before op after, ops = before ++ op :: after → Sensible before op := by
  simpa using ops_ok_iff_aux (before := []) (s := RState.start) rfl ops

/-- C55: so a parser sees the last definition. -/
theorem C55_parsers_see_it (ops : List ROp) (s : RState) (h : RState.start.ops ops = .ok s)
    (r o k : Nat) (hr : (varObjects [] 0 ops)[r]? = some o) (hk : (objectPools ops)[o]? = some k)
    (hd : ROp.dropPool k ∉ ops) : s.env o = lastDefinition (varObjects [] 0 ops) o ops none := by
  obtain ⟨_, _, h1, h2⟩ := C55_last_definition ops s h r o k hr hk
  rw [RState.env]
  cases hl : lastDefinition (varObjects [] 0 ops) o ops none with
  | none => rw [h2 hd hl]
  | some p => rw [h1 hd p hl]

/-- Two pools, two objects, a copy, definitions through the original and the copy, the other pool
dropped. -/
def exRecurOps : List ROp :=
  [.newPool, .newPool, .make 0, .make 1, .copy 0, .define 2 int_, .define 1 .eoi, .dropPool 1, .define 0 uint_]

example : (∃ s, RState.start.ops exRecurOps = .ok s ∧
      s.operand 0 = .ok uint_ ∧ s.operand 1 = .error .ubDangling) ∧
    varObjects [] 0 exRecurOps = [0, 1, 0] ∧ objectPools exRecurOps = [0, 1] :=
  ⟨⟨_, rfl, rfl, rfl⟩, rfl, rfl⟩

/-- A definition after the pool went out of scope makes no sense, and errs. -/
example : ¬ Sensible [.newPool, .make 0, .dropPool 0] (.define 0 int_) ∧
    RState.start.ops [.newPool, .make 0, .dropPool 0, .define 0 int_] = .error .ubDangling := by
  refine ⟨?_, rfl⟩
  rintro ⟨o, k, ho, hk, _, hd⟩
  cases ho; cases hk
  simp at hd

/-- The recursive example of the guide, set up with a pool, has the definitions C52 speaks of. -/
example : ∃ s, RState.start.ops [.newPool, .make 0, .copy 0, .define 0 guideNested] = .ok s ∧
    s.env = guideEnv := by
  refine ⟨_, rfl, ?_⟩
  funext i
  match i with
  | 0 => rfl
  | i + 1 => simp [RState.env, RState.operand, guideEnv, RState.start]

end Abu
