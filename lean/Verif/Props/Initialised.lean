import Verif.Proofs.FilledTop
import Verif.Proofs.Eval
/-
C42: nothing uninitialised is read.
-/
namespace Abu

/-- C42, for patterns in which the operand of every action with a scalar parameter, and every
pattern that is parsed into a scalar buffer, writes its destination whenever it matches
(`Pat.careful`): `parse` into initialised objects never copies an uninitialised scalar, hands only
initialised values to actions and leaves initialised objects. -/
theorem C42_parse_partial (env : Env) (F : Nat → Bool) (G : Nat → Ty → Bool) (p : Pat) (dst : Ref)
    (m : Mem) (t : List Ch) (v : Verdict)
    (hm : ∀ x ∈ m.objs, x.whole = true) (hl : ∀ e ∈ m.log, e.arg.whole = true)
    (hd : m.Filled dst) (ht : p.Tame) (hp : p.careful F G false dst.ty = true)
    (he : env.Careful F G) (h : Parses env p dst m t v) :
    v ≠ .error .ubUninit ∧ ∀ r m' rest, v = .ok (r, m', rest) →
      (∀ e ∈ m'.log, e.arg.whole = true) ∧ m'.Filled dst ∧
        ∀ (o : Nat) x, o < m.objs.length → m'.objs[o]? = some x → x.whole = true := by
  have hc := h.careful he ⟨fun x hx => .inr (hm x hx), hl⟩ ht hp fun _ => hd
  refine ⟨fun hv => ?_, fun r m' rest hv => ?_⟩
  · subst hv; exact hc rfl
  · subst hv
    refine ⟨hc.1.2, hd.later hc.2, fun o x ho hx => ?_⟩
    obtain ⟨y, h1, h2⟩ := hc.2 o _ (List.getElem?_eq_getElem ho) (hm _ (List.getElem_mem ho))
    rw [h1] at hx
    cases hx
    exact h2

/-- C42, for a parser object, however the text is delivered to it. -/
theorem C42_parser_object_partial (env : Env) (F : Nat → Bool) (G : Nat → Ty → Bool) (p : Pat)
    (dst : Ref) (m : Mem) (ops : List SOp) (v : Verdict)
    (hm : ∀ x ∈ m.objs, x.whole = true) (hl : ∀ e ∈ m.log, e.arg.whole = true)
    (hd : m.Filled dst) (ht : p.Tame) (hp : p.careful F G false dst.ty = true)
    (he : env.Careful F G) (h : MakeParserRun env p dst m ops v) :
    v ≠ .error .ubUninit ∧ ∀ r m' rest, v = .ok (r, m', rest) →
      (∀ e ∈ m'.log, e.arg.whole = true) ∧ m'.Filled dst ∧
        ∀ (o : Nat) x, o < m.objs.length → m'.objs[o]? = some x → x.whole = true := by
  have hc := h.careful he ⟨fun x hx => .inr (hm x hx), hl⟩ ht hp fun _ => hd
  refine ⟨fun hv => ?_, fun r m' rest hv => ?_⟩
  · subst hv; exact hc rfl
  · subst hv
    refine ⟨hc.1.2, hd.later hc.2, fun o x ho hx => ?_⟩
    obtain ⟨y, h1, h2⟩ := hc.2 o _ (List.getElem?_eq_getElem ho) (hm _ (List.getElem_mem ho))
    rw [h1] at hx
    cases hx
    exact h2

/-- An action that doubles its parameter of type `int`. -/
def doubleAct : Act := ⟨0, .int, false, false, fun _ v b =>
  ((match v with | .num i => .num (2 * i) | v => v), b)⟩

theorem doubleAct_tame : doubleAct.Tame := by
  intro log v b hv
  refine ⟨?_, .inr rfl⟩
  cases v <;> first | (cases hv; done) | exact hv

/-- C42 is false in general: the function of `lit('a')[f]`, with `f(int)`, is called with a copy of
a member that nothing has written. -/
theorem C42_refuted : Parses (fun _ => none) (.action doubleAct (litC 97)) (.at 0 [] .int)
    ⟨[.num 7], []⟩ [97] (.error .ubUninit) := parses_of_parseN (n := 12) rfl

/-- Without actions: `*(lit('a') >> 'b')` into a vector of int appends a copy of a buffer that
nothing has written. -/
theorem C42_refuted_buffer : Parses (fun _ => none) (.rep 0 0 (.seq [litC 97, litC 98]))
    (.at 0 [] (.coll .int)) ⟨[.coll []], []⟩ [97, 98] (.error .ubUninit) :=
  parses_of_parseN (n := 12) rfl

/-- The operand may match without writing because it is optional: `(-int_)[f]`. -/
theorem C42_refuted_optional : Parses (fun _ => none) (.action doubleAct (.opt int_))
    (.at 0 [] .int) ⟨[.num 7], []⟩ [97] (.error .ubUninit) := parses_of_parseN (n := 12) rfl

/-- `('[' >> int_[f] >> ']' | r) % ','` into a vector, `r` set to `int_`. -/
def exCareful : Pat :=
  .list (.alt [.seq [litC 91, .action doubleAct int_, litC 93], .recur 3 false]) (litC 44)
def exCarefulEnv : Env := fun id => if id = 3 then some int_ else none

example : exCareful.careful (· == 3) (fun _ _ => true) false (.coll .int) = true := by decide
example : exCareful.Tame := ⟨⟨⟨trivial, ⟨doubleAct_tame, trivial⟩, trivial, trivial⟩, trivial, trivial⟩, trivial⟩
example : exCarefulEnv.Careful (· == 3) (fun _ _ => true) := by
  intro id q h
  unfold exCarefulEnv at h
  split at h
  · cases h; exact ⟨trivial, fun _ => rfl, fun _ _ => rfl⟩
  · cases h
example : Parses exCarefulEnv exCareful (.at 0 [] (.coll .int)) ⟨[.coll []], []⟩
    [91, 53, 93, 44, 55]
    (.ok (.SUCCESS, ⟨[.coll [.num 10, .num 7], .num 10, .num 5, .indet, .num 7], [⟨0, .num 5⟩]⟩, [])) :=
  parses_of_parseN (n := 30) rfl

end Abu
