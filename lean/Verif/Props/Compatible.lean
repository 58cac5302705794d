import Verif.Proofs.CompatibleTop
import Verif.Props.Safety
import Verif.Props.Initialised
import Verif.Props.Terminate
import Verif.Props.Grammar
/-
C62: parsing into destinations of the right types.
-/
namespace Abu

/-- The errors of `Err.Allowed` that C40 leaves. -/
theorem allowed_left {N : NumKind → Prop} {e : Err} (h : e.Allowed N) (h1 : e ≠ .ubData)
    (h2 : e ≠ .stuck) (h3 : e ≠ .fuel) :
    (e = .ubOverflow ∧ ∃ k, N k ∧ ¬ k.noOverflow) ∨ e = .ubUninit := by
  obtain ⟨a, b, c, d, d', d'', f⟩ := h
  cases e <;> first | contradiction | exact .inr rfl | exact .inl ⟨rfl, f rfl⟩

/-- C62, `parse`: if the objects in memory have values of their types, the destination is (a part of)
one of them, and the pattern can be parsed into a destination of that type, then no conversion is
missing, nothing is written through a reference to no object, no `Recur` is used that was not set: the
parse ends with a result, or because a number overflowed (which takes one of the types in `N` that
can), or because a scalar was copied that had no value. All objects have values of their types in the
end, also those made on the way. -/
theorem C62_parse (env : Env) (N : NumKind → Prop) (G : Nat → Ty → Ty → Prop) (p : Pat) (dst : Ref)
    (m : Mem) (t : List Ch) (v : Verdict) (types : List Ty) (hm : m.Typed types)
    (hd : dst.Typed types) (hp : p.into N G false dst.ty dst.ty) (he : env.Into N G)
    (h : Parses env p dst m t v) :
    (∃ r m' rest more, v = .ok (r, m', rest) ∧ m'.Typed (types ++ more)) ∨
    (v = .error .ubOverflow ∧ ∃ k, N k ∧ ¬ k.noOverflow) ∨ v = .error .ubUninit := by
  have hf := h.fit he hm hd hp
  cases v with
  | ok x =>
    obtain ⟨r, m', rest⟩ := x
    obtain ⟨_, h1, more, rfl⟩ := hf
    exact .inl ⟨r, m', rest, more, rfl, h1⟩
  | error e =>
    have h1 := C40_parse_no_rollback_underflow env p dst m t e h
    rcases allowed_left hf h1.1 h1.2 h.not_fuel with ⟨rfl, h2⟩ | rfl
    · exact .inr (.inl ⟨rfl, h2⟩)
    · exact .inr (.inr rfl)

/-- C62, for a parser object, however the text is delivered to it. -/
theorem C62_parser_object (env : Env) (N : NumKind → Prop) (G : Nat → Ty → Ty → Prop) (p : Pat)
    (dst : Ref) (m : Mem) (ops : List SOp) (v : Verdict) (types : List Ty) (hl : Legal ops)
    (hm : m.Typed types) (hd : dst.Typed types) (hp : p.into N G false dst.ty dst.ty)
    (he : env.Into N G) (h : MakeParserRun env p dst m ops v) :
    (∃ r m' rest more, v = .ok (r, m', rest) ∧ m'.Typed (types ++ more)) ∨
    (v = .error .ubOverflow ∧ ∃ k, N k ∧ ¬ k.noOverflow) ∨ v = .error .ubUninit := by
  have hf := h.fit he hm hd hp
  cases v with
  | ok x =>
    obtain ⟨r, m', rest⟩ := x
    obtain ⟨_, h1, more, rfl⟩ := hf
    exact .inl ⟨r, m', rest, more, rfl, h1⟩
  | error e =>
    have h1 := C40_session_no_rollback_underflow env p dst m ops hl e h
    rcases allowed_left hf h1.1 h1.2 h.not_fuel with ⟨rfl, h2⟩ | rfl
    · exact .inr (.inl ⟨rfl, h2⟩)
    · exact .inr (.inr rfl)

/-- A typed reference into a memory of initialised objects. -/
theorem Ref.Typed.filled {m : Mem} {types : List Ty} {r : Ref} (h : r.Typed types)
    (hm : m.Typed types) (hw : ∀ x ∈ m.objs, x.whole = true) : m.Filled r := by
  cases r with
  | nil => trivial
  | «at» o path t =>
    obtain ⟨_, s, h1, _⟩ := h
    have ho : o < m.objs.length := by
      rw [hm.1]; exact (List.getElem?_eq_some_iff.1 h1).1
    exact ⟨_, List.getElem?_eq_getElem ho, hw _ (List.getElem_mem ho)⟩

/-- C62: with initialised objects, number types that do not overflow, and a pattern that does not
leave scalar buffers unwritten (C42), no parse ends with an error. -/
theorem C62_no_error (env : Env) (N : NumKind → Prop) (G : Nat → Ty → Ty → Prop) (F : Nat → Bool)
    (G' : Nat → Ty → Bool) (p : Pat) (dst : Ref) (m : Mem) (t : List Ch) (v : Verdict)
    (types : List Ty) (hN : ∀ k, N k → k.noOverflow) (hm : m.Typed types) (hd : dst.Typed types)
    (hp : p.into N G false dst.ty dst.ty) (he : env.Into N G) (hw : ∀ x ∈ m.objs, x.whole = true)
    (hl : ∀ e ∈ m.log, e.arg.whole = true) (ht : p.Tame)
    (hc : p.careful F G' false dst.ty = true) (hec : env.Careful F G')
    (h : Parses env p dst m t v) :
    ∃ r m' rest more, v = .ok (r, m', rest) ∧ m'.Typed (types ++ more) ∧ m'.Filled dst := by
  have h2 := C42_parse_partial env F G' p dst m t v hw hl (hd.filled hm hw) ht hc hec h
  rcases C62_parse env N G p dst m t v types hm hd hp he h with ⟨r, m', rest, more, rfl, h1⟩ |
    ⟨_, k, h3, h4⟩ | h3
  · exact ⟨r, m', rest, more, rfl, h1, (h2.2 r m' rest rfl).2.1⟩
  · exact absurd (hN k h3) h4
  · exact absurd h3 h2.1

/-- The same for parser objects. -/
theorem C62_parser_object_no_error (env : Env) (N : NumKind → Prop) (G : Nat → Ty → Ty → Prop)
    (F : Nat → Bool) (G' : Nat → Ty → Bool) (p : Pat) (dst : Ref) (m : Mem) (ops : List SOp)
    (v : Verdict) (types : List Ty) (hops : Legal ops) (hN : ∀ k, N k → k.noOverflow)
    (hm : m.Typed types) (hd : dst.Typed types) (hp : p.into N G false dst.ty dst.ty)
    (he : env.Into N G) (hw : ∀ x ∈ m.objs, x.whole = true)
    (hl : ∀ e ∈ m.log, e.arg.whole = true) (ht : p.Tame)
    (hc : p.careful F G' false dst.ty = true) (hec : env.Careful F G')
    (h : MakeParserRun env p dst m ops v) :
    ∃ r m' rest more, v = .ok (r, m', rest) ∧ m'.Typed (types ++ more) ∧ m'.Filled dst := by
  have h2 := C42_parser_object_partial env F G' p dst m ops v hw hl (hd.filled hm hw) ht hc hec h
  rcases C62_parser_object env N G p dst m ops v types hops hm hd hp he h with
    ⟨r, m', rest, more, rfl, h1⟩ | ⟨_, k, h3, h4⟩ | h3
  · exact ⟨r, m', rest, more, rfl, h1, (h2.2 r m' rest rfl).2.1⟩
  · exact absurd (hN k h3) h4
  · exact absurd h3 h2.1

/-- C62: if moreover no loop and no recursion goes on without consuming (C38), every parse of every
text ends, with `SUCCESS` or `FAILURE`, and values of the right types. -/
theorem C62_every_text (env : Env) (N : NumKind → Prop) (G : Nat → Ty → Ty → Prop) (F : Nat → Bool)
    (G' : Nat → Ty → Bool) (consumes : Nat → Bool) (p : Pat) (dst : Ref) (m : Mem) (t : List Ch)
    (types : List Ty) (hN : ∀ k, N k → k.noOverflow) (hm : m.Typed types) (hd : dst.Typed types)
    (hp : p.into N G false dst.ty dst.ty) (he : env.Into N G) (hw : ∀ x ∈ m.objs, x.whole = true)
    (hl : ∀ e ∈ m.log, e.arg.whole = true) (ht : p.Tame)
    (hc : p.careful F G' false dst.ty = true) (hec : env.Careful F G')
    (hloops : p.loopsEat consumes = true) (hset : ∀ a ∈ p.refs, env a ≠ none)
    (henv : env.LoopsEat consumes) (hleft : WellFounded (LeftCalls env consumes)) :
    ∃ r m' rest more, Parses env p dst m t (.ok (r, m', rest)) ∧ r ≠ .PARTIAL ∧
      m'.Typed (types ++ more) ∧ m'.Filled dst := by
  have key := fun v h => C62_no_error env N G F G' p dst m t v types hN hm hd hp he hw hl ht hc hec h
  rcases C38_parse_terminates env consumes p hloops hset henv hleft dst m t with
    ⟨r, m', rest, hr, h⟩ | ⟨e, _, h⟩
  · obtain ⟨_, _, _, more, h1, h2, h3⟩ := key _ h
    cases h1
    exact ⟨r, m', rest, more, h, hr, h2, h3⟩
  · obtain ⟨_, _, _, _, h1, _⟩ := key _ h
    cases h1

/-- C15 (partial: tidy patterns): what the grammar says is then what the
parse says: there is no destination error it
could meet instead. -/
theorem C15_without_error_partial (env : Env) (N : NumKind → Prop) (G : Nat → Ty → Ty → Prop)
    (F : Nat → Bool) (G' : Nat → Ty → Bool) (p : Pat) (dst : Ref) (m : Mem) (t : List Ch)
    (o : Option (List Ch)) (els elf : Stale) (types : List Ty) (hN : ∀ k, N k → k.noOverflow)
    (hm : m.Typed types) (hd : dst.Typed types) (hp : p.into N G false dst.ty dst.ty)
    (he : env.Into N G) (hw : ∀ x ∈ m.objs, x.whole = true)
    (hl : ∀ e ∈ m.log, e.arg.whole = true) (ht : p.Tame)
    (hc : p.careful F G' false dst.ty = true) (hec : env.Careful F G')
    (htidy : env.tidy false els elf) (hpt : p.tidy false els elf false .any .any = true)
    (ho : PegRest env p t o) :
    ∃ r m' rest more, Parses env p dst m t (.ok (r, m', rest)) ∧ Fits o r rest ∧
      m'.Typed (types ++ more) ∧ m'.Filled dst := by
  have key := fun v h => C62_no_error env N G F G' p dst m t v types hN hm hd hp he hw hl ht hc hec h
  rcases C15_peg_is_parsed_partial env p els elf htidy hpt t o ho dst m with
    ⟨r, m', rest, h, hf⟩ | ⟨e, _, h⟩
  · obtain ⟨_, _, _, more, h1, h2, h3⟩ := key _ h
    cases h1
    exact ⟨r, m', rest, more, h, hf, h2, h3⟩
  · obtain ⟨_, _, _, _, h1, _⟩ := key _ h
    cases h1

/-! ### Examples -/

/-- `unsigned` -/
abbrev tyU : Ty := .num (.unsigned 32)

/-- `'[' >> (r % ',') >> ']' >> uint_` -/
def exTyped : Pat :=
  .seq [litC 91, .list (.recur 0 false) (litC 44), litC 93, .uint 10 1 0]
/-- `r := uint_ | '(' >> r >> ')'` -/
def exTypedRule : Pat := .alt [.uint 10 1 0, .seq [litC 40, .recur 0 false, litC 41]]
def exTypedEnv : Env := fun id => if id = 0 then some exTypedRule else none
/-- Into `std::tuple<std::vector<unsigned>, unsigned>`. -/
abbrev exTypedTy : Ty := .tup [.coll tyU, tyU]

theorem exTyped_into : exTyped.into (· = .unsigned 32) (fun id _ D => id = 0 ∧ D = tyU) false
    exTypedTy exTypedTy := by
  refine ⟨by simp, ?_⟩
  simp [Pat.intoSlots, Pat.valued, Pat.into, Ty.inner, Ty.item, Ty.forValue, Ty.Digits, litC, charP]

theorem exTypedEnv_into : exTypedEnv.Into (· = .unsigned 32) fun id _ D => id = 0 ∧ D = tyU := by
  rintro id B D ⟨rfl, rfl⟩
  refine ⟨_, rfl, by simp, ?_⟩
  simp [Pat.allInto, Pat.intoSlots, Pat.valued, Pat.into, Ty.inner, Ty.item, Ty.forValue, Ty.Digits,
    litC, charP]

theorem exTypedEnv_eq {id q} (h : exTypedEnv id = some q) : id = 0 ∧ q = exTypedRule := by
  unfold exTypedEnv at h
  split at h
  · cases h; exact ⟨by assumption, rfl⟩
  · cases h

/-- Every text is parsed into a tuple of a vector and a number, or not, without error. -/
example (t : List Ch) : ∃ r m' rest more,
    Parses exTypedEnv exTyped (.at 0 [] exTypedTy) ⟨[.tup [.coll [], .num 0]], []⟩ t
      (.ok (r, m', rest)) ∧ r ≠ .PARTIAL ∧ m'.Typed ([exTypedTy] ++ more) ∧
      m'.Filled (.at 0 [] exTypedTy) := by
  refine C62_every_text exTypedEnv (· = .unsigned 32) (fun id _ D => id = 0 ∧ D = tyU) (· == 0)
    (fun _ _ => true) (fun _ => true) exTyped (.at 0 [] exTypedTy) _ t [exTypedTy]
    (by rintro _ rfl; trivial) ⟨rfl, ?_⟩ ⟨rfl, _, rfl, rfl⟩ exTyped_into exTypedEnv_into
    (by simp [Val.whole, Val.wholes]) (by simp) ⟨trivial, ⟨trivial, trivial⟩, trivial, trivial, trivial⟩ rfl ?_ rfl
    (by simp [exTyped, Pat.refs, Pat.refsAll, exTypedEnv, litC, charP]) ⟨?_, ?_, ?_⟩ ⟨fun b => ⟨_, ?_⟩⟩
  · intro o t v h1 h2
    cases o with
    | zero => cases h1; cases h2; exact .inl (by simp [Ty.has, Ty.hasAll, NumKind.inRange])
    | succ o => simp at h1
  · intro id q h
    obtain ⟨rfl, rfl⟩ := exTypedEnv_eq h
    exact ⟨⟨trivial, ⟨trivial, trivial, trivial, trivial⟩, trivial⟩, fun _ => rfl, fun _ _ => by simp [exTypedRule, Pat.careful, Pat.allCareful, Pat.carefulSeq, bufferSafe, litC, charP]⟩
  · intro id q h; obtain ⟨rfl, rfl⟩ := exTypedEnv_eq h; rfl
  · intro id q h _; obtain ⟨rfl, rfl⟩ := exTypedEnv_eq h; rfl
  · intro id q h a ha
    obtain ⟨rfl, rfl⟩ := exTypedEnv_eq h
    simp [exTypedRule, Pat.refs, Pat.refsAll, litC, charP] at ha
    subst ha
    simp [exTypedEnv]
  · rintro a ⟨q, h, ha⟩
    obtain ⟨rfl, rfl⟩ := exTypedEnv_eq h
    simp [exTypedRule, Pat.heads, Pat.headsAll, Pat.headsSeq, Pat.eats, litC, charP] at ha

/-- "[1,(2)]3" -/
example : Parses exTypedEnv exTyped (.at 0 [] exTypedTy) ⟨[.tup [.coll [], .num 0]], []⟩
    [91, 49, 44, 40, 50, 41, 93, 51] (.ok (.SUCCESS,
      ⟨[.tup [.coll [.num 1, .num 2], .num 3], .num 1, .num 2], []⟩, [])) :=
  parses_of_parseN (n := 30) rfl

/-- An action of `(unsigned& sum, unsigned x)`: `sum += x`. -/
def sumAct : Act := ⟨0, tyU, true, true, fun _ v b =>
  (.nil, match v, b with | .num i, .num j => .num ((i + j) % 2 ^ 32) | _, _ => b)⟩

theorem sumAct_typed {D : Ty} : sumAct.Typed tyU D := by
  intro log v b hv hb
  refine ⟨fun h => (by cases h), fun _ => ?_⟩
  cases v <;> cases b <;> first
    | exact .inr rfl
    | (refine .inl ?_
       show 0 ≤ _ ∧ _
       exact ⟨Int.emod_nonneg _ (by decide), Int.emod_lt_of_pos _ (by decide)⟩)

/-- `bind_dst(uint_[sum] % ',')` -/
def exSumInto : Pat := .bindDst (.list (.action sumAct uint_) (litC 44))

theorem exSumInto_into : exSumInto.into (· = .unsigned 32) (fun _ _ _ => False) false tyU tyU := by
  simp only [exSumInto, Pat.into, litC, charP, uint_]
  exact ⟨⟨rfl, sumAct_typed⟩, trivial⟩

/-- Whatever is delivered to the parser object, it ends without error. -/
example (ops : List SOp) (hops : Legal ops) (v : Verdict)
    (h : MakeParserRun noEnv exSumInto (.at 0 [] tyU) ⟨[.num 0], []⟩ ops v) :
    ∃ r m' rest more, v = .ok (r, m', rest) ∧ m'.Typed ([tyU] ++ more) ∧ m'.Filled (.at 0 [] tyU) := by
  refine C62_parser_object_no_error noEnv (· = .unsigned 32) (fun _ _ _ => False) (fun _ => true)
    (fun _ _ => true) exSumInto (.at 0 [] tyU) _ ops v [tyU] hops (by rintro _ rfl; trivial) ⟨rfl, ?_⟩
    ⟨rfl, _, rfl, rfl⟩ exSumInto_into (fun _ _ _ h => h.elim) (by simp [Val.whole]) (by simp)
    ⟨⟨?_, trivial⟩, trivial⟩ rfl (fun id q h => by cases h) h
  · intro o t v h1 h2
    cases o with
    | zero => cases h1; cases h2; exact .inl (by simp [Ty.has, NumKind.inRange])
    | succ o => simp at h1
  · intro log v b hv
    refine ⟨rfl, ?_⟩
    cases v <;> cases b <;> first | exact .inr rfl | exact .inl rfl

/-- `'(' >> (int_ >> ',' >> int_).as<point>() >> ')'` into a `point`. -/
example : (Pat.seq [litC 40, .construct [tyU, tyU] (.seq [uint_, litC 44, uint_]), litC 41]).into
    (· = .unsigned 32) (fun _ _ _ => False) false (.user 1) (.user 1) := by
  refine ⟨by simp, ?_⟩
  simp [Pat.intoSlots, Pat.valued, Pat.into, Ty.inner, Ty.item, Ty.forValue, Ty.Digits, Ty.MadeFrom,
    litC, charP, uint_]

/-! ### The hypotheses are needed -/

/-- The types: `uint_ >> *(',' >> uint_)` into a `std::vector<unsigned>` does not compile, and it is
not a pattern that can be parsed into such a destination. -/
theorem C62_hypothesis_on_types {N G B} :
    Parses noEnv (.seq [uint_, .rep 0 0 (.seq [litC 44, uint_])]) (.at 0 [] (.coll tyU))
      ⟨[.coll []], []⟩ [49] (.error .noCompile) ∧
    ¬ (Pat.seq [uint_, .rep 0 0 (.seq [litC 44, uint_])]).into N G false B (.coll tyU) := by
  refine ⟨parses_of_parseN (n := 12) rfl, ?_⟩
  rintro ⟨_, h⟩
  simp [Pat.intoSlots, Pat.valued, Pat.into, Ty.inner, Ty.forValue, Ty.Digits, uint_] at h

/-- The memory: writing to an object that does not exist. -/
theorem C62_hypothesis_on_memory :
    Parses noEnv (.char .any) (.at 3 [] tyU) ⟨[.num 0], []⟩ [49] (.error .ubDangling) :=
  parses_of_parseN (n := 12) rfl

/-- The `Recur` objects: one that is not set. -/
theorem C62_hypothesis_on_recur :
    Parses noEnv (.recur 0 false) .nil ⟨[], []⟩ [49] (.error .ubRecur) :=
  parses_of_parseN (n := 12) rfl

/-- The number types: `int_` into an `int`. -/
theorem C62_hypothesis_on_overflow :
    Parses noEnv int_ (.at 0 [] .int) ⟨[.num 0], []⟩ (List.replicate 10 57) (.error .ubOverflow) :=
  parses_of_parseN (n := 15) rfl

end Abu
