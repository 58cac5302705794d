import Verif.Proofs.Documented
import Verif.Props.Compatible
/-
C63: the destinations the reference calls compatible.
-/
namespace Abu

/-- C63 (partial: without the parts of the rules named at `Documented`): a pattern is parsed into a
destination the reference calls compatible with it without a missing conversion or a write of a value
of another type. -/
theorem C63_parse_partial (env : Env) (N : NumKind → Prop) (G : Nat → Ty → Prop) (p : Pat) (dst : Ref)
    (m : Mem) (t : List Ch) (v : Verdict) (types : List Ty) (hm : m.Typed types)
    (hd : dst.Typed types) (hp : Documented false N G dst.ty false p dst.ty)
    (he : env.Documented false N G dst.ty) (h : Parses env p dst m t v) :
    (∃ r m' rest more, v = .ok (r, m', rest) ∧ m'.Typed (types ++ more)) ∨
    (v = .error .ubOverflow ∧ ∃ k, N k ∧ ¬ k.noOverflow) ∨ v = .error .ubUninit :=
  C62_parse env N (docRecur G dst.ty) p dst m t v types hm hd (hp.into.1 rfl) he.into h

/-- C63, parser objects. -/
theorem C63_parser_object_partial (env : Env) (N : NumKind → Prop) (G : Nat → Ty → Prop) (p : Pat)
    (dst : Ref) (m : Mem) (ops : List SOp) (v : Verdict) (types : List Ty) (hl : Legal ops)
    (hm : m.Typed types) (hd : dst.Typed types) (hp : Documented false N G dst.ty false p dst.ty)
    (he : env.Documented false N G dst.ty) (h : MakeParserRun env p dst m ops v) :
    (∃ r m' rest more, v = .ok (r, m', rest) ∧ m'.Typed (types ++ more)) ∨
    (v = .error .ubOverflow ∧ ∃ k, N k ∧ ¬ k.noOverflow) ∨ v = .error .ubUninit :=
  C62_parser_object env N (docRecur G dst.ty) p dst m ops v types hl hm hd (hp.into.1 rfl) he.into h

/-! ### Examples -/

/-- `char` -/
abbrev tyC : Ty := .num (.signed 8)
/-- `symbol({{"up", 1}, {"down", 2}})`-like table of one character each. -/
def exMoves : List (Ch × Val) := [(117, .num 1), (100, .num 2)]

/-- `*((+char_ - ...) >> ':' >> (uint_ | symbol(moves)) >> ';')` into a
`std::vector<std::tuple<std::string, unsigned>>`. -/
def exDoc : Pat :=
  .rep 0 0 (.seq [.rep 1 0 (.char (.range 97 122)), litC 58, .alt [uint_, .charSymbol exMoves], litC 59])
abbrev exDocTy : Ty := .coll (.tup [.coll tyC, tyU])

theorem doc_lit {full N G B item c} : Documented full N G B item (litC c) .nil :=
  .discard (item' := false) (D := tyC) .char

theorem exDoc_documented {G B} :
    Documented false (· = .unsigned 32) G B false exDoc exDocTy := by
  refine .rep (.seqTuple (by simp) ?_ ?_ rfl) rfl
  · simp only [List.forall_mem_cons]
    exact ⟨fun h => (by cases h), fun _ => doc_lit, fun h => (by cases h), fun _ => doc_lit,
      fun _ h => (by cases h)⟩
  · intro i p D h1 h2
    match i with
    | 0 => cases h1; cases h2; exact .rep .char rfl
    | 1 =>
      cases h1; cases h2
      refine .alt (by simp) ?_
      simp only [List.forall_mem_cons]
      refine ⟨.uint rfl, .charSymbol ?_ rfl, fun _ h => (by cases h)⟩
      simp [exMoves, Ty.has, NumKind.inRange]
    | i + 2 => simp at h2

example (t : List Ch) (v : Verdict)
    (h : Parses noEnv exDoc (.at 0 [] exDocTy) ⟨[.coll []], []⟩ t v) :
    (∃ r m' rest more, v = .ok (r, m', rest) ∧ m'.Typed ([exDocTy] ++ more)) ∨
    (v = .error .ubOverflow ∧ ∃ k : NumKind, k = .unsigned 32 ∧ ¬ k.noOverflow) ∨ v = .error .ubUninit := by
  refine C63_parse_partial noEnv (· = .unsigned 32) (fun _ _ => False) exDoc
    (.at 0 [] exDocTy) _ t v [exDocTy] ⟨rfl, ?_⟩
    ⟨rfl, _, rfl, rfl⟩ exDoc_documented (fun _ _ h => h.elim) h
  intro o t v h1 h2
  cases o with
  | zero => cases h1; cases h2; exact .inl (by simp [Ty.has])
  | succ o => simp at h1

/-- "ab:7;c:8;" -/
example : Parses noEnv exDoc (.at 0 [] exDocTy) ⟨[.coll []], []⟩ [97, 98, 58, 55, 59, 99, 58, 56, 59]
    (.ok (.SUCCESS, ⟨[.coll [.tup [.coll [.num 97, .num 98], .num 7], .tup [.coll [.num 99], .num 8]],
      .tup [.coll [.num 97, .num 98], .num 7], .tup [.coll [.num 99], .num 8],
      .tup [.coll [], .num 0]], []⟩, [])) :=
  parses_of_parseN (n := 30) rfl

/-! ### The reference is wrong -/

/-- "if one child is `vector<T>`, and all childs are `T` or `vector<T>`: `vector<T>`":
`uint_ >> *(',' >> uint_)` does not compile. -/
theorem C63_refuted_vector : Documented true (· = .unsigned 32) (fun _ _ => False) (.coll tyU) false
      (.seq [uint_, .rep 0 0 (.seq [litC 44, uint_])]) (.coll tyU) ∧
    Parses noEnv (.seq [uint_, .rep 0 0 (.seq [litC 44, uint_])]) (.at 0 [] (.coll tyU))
      ⟨[.coll []], []⟩ [49] (.error .noCompile) := by
  refine ⟨.seqColl (fun p => match p with | .uint .. => .one | _ => .many) rfl ⟨_, .tail _ (.head _), rfl⟩
    ?_ (fun _ _ _ => rfl) ?_ (fun _ _ _ => rfl) ?_, parses_of_parseN (n := 12) rfl⟩
  all_goals
    simp only [List.forall_mem_cons]
  · exact ⟨fun h => (by cases h), fun h => (by cases h), fun _ h => (by cases h)⟩
  · exact ⟨fun _ => .uint rfl, fun h => (by cases h), fun _ h => (by cases h)⟩
  · refine ⟨fun h => (by cases h), fun _ => .rep (.seqOne (pre := [litC 44]) (post := []) ?_ ?_ (.uint rfl) rfl) rfl,
      fun _ h => (by cases h)⟩
    · simp only [List.append_nil, List.forall_mem_cons]; exact ⟨doc_lit, fun _ h => (by cases h)⟩
    · exact fun _ _ => rfl

/-- "If all child patterns except `pat` are `Nil` patterns: Anything `pat` is compatible with": the
first number of `'(' >> lexeme(uint_ >> ',' >> uint_) >> ')'` is overwritten by the second one. -/
theorem C63_refuted_single : Documented true (· = .unsigned 32) (fun _ _ => False) (.tup [tyU, tyU])
      false (.lexeme (.seq [uint_, litC 44, uint_])) (.tup [tyU, tyU]) ∧
    Parses noEnv (.lexeme (.seq [uint_, litC 44, uint_])) (.at 0 [] (.tup [tyU, tyU]))
      ⟨[.tup [.num 0, .num 0]], []⟩ [49, 44, 50] (.ok (.SUCCESS, ⟨[.tup [.num 1, .num 2]], []⟩, [])) ∧
    Documented true (· = .unsigned 32) (fun _ _ => False) (.tup [tyU, tyU])
      false (.seq [litC 40, .lexeme (.seq [uint_, litC 44, uint_]), litC 41]) (.tup [tyU, tyU]) ∧
    Parses noEnv (.seq [litC 40, .lexeme (.seq [uint_, litC 44, uint_]), litC 41])
      (.at 0 [] (.tup [tyU, tyU])) ⟨[.tup [.num 0, .num 0]], []⟩ [40, 49, 44, 50, 41]
      (.ok (.SUCCESS, ⟨[.tup [.num 2, .num 0]], []⟩, [])) := by
  have h : Documented true (· = .unsigned 32) (fun _ _ => False) (.tup [tyU, tyU])
      false (.lexeme (.seq [uint_, litC 44, uint_])) (.tup [tyU, tyU]) := by
    refine .lexeme (.seqTuple (by simp) ?_ ?_ rfl)
    · simp only [List.forall_mem_cons]
      exact ⟨fun h => (by cases h), fun _ => doc_lit, fun h => (by cases h), fun _ h => (by cases h)⟩
    · intro i p D h1 h2
      match i with
      | 0 => cases h1; cases h2; exact .uint rfl
      | 1 => cases h1; cases h2; exact .uint rfl
      | i + 2 => simp at h2
  refine ⟨h, parses_of_parseN (n := 12) rfl,
    .seqOne (pre := [litC 40]) (post := [litC 41]) ?_ (fun _ _ => rfl) h rfl,
    parses_of_parseN (n := 14) rfl⟩
  simp only [List.cons_append, List.nil_append, List.forall_mem_cons]
  exact ⟨doc_lit, doc_lit, fun _ h => (by cases h)⟩

/-- "Otherwise: dst must be a type that can be constructed with each of the non-Nil child patterns":
`uint_ >> ',' >> uint_` into a class that is constructed from two numbers does not compile (it takes
`as<unsigned, unsigned>()`, C44). -/
theorem C63_refuted_class : Documented true (· = .unsigned 32) (fun _ _ => False) (.user 1)
      false (.seq [uint_, litC 44, uint_]) (.user 1) ∧
    Parses noEnv (.seq [uint_, litC 44, uint_]) (.at 0 [] (.user 1)) ⟨[.obj 1 [.num 0, .num 0]], []⟩
      [49, 44, 50] (.error .noCompile) := by
  refine ⟨.seqMade (vals := [uint_, uint_]) (Ds := [tyU, tyU]) rfl (.cons_cons _ (.cons _ (.refl _))) ?_ ?_
    rfl trivial, parses_of_parseN (n := 12) rfl⟩
  · simp only [List.forall_mem_cons]
    exact ⟨fun h => (by simp at h), fun _ => doc_lit, fun h => (by simp at h), fun _ h => (by cases h)⟩
  · intro i p D h1 h2
    match i with
    | 0 => cases h1; cases h2; exact .uint rfl
    | 1 => cases h1; cases h2; exact .uint rfl
    | i + 2 => simp at h2

/-- "`symbol(map<CHAR_T, VAL>)`: `VAL`": not when `VAL` is `std::string`, as collections can only be
appended to. -/
theorem C63_refuted_symbol : Documented true (· = .unsigned 32) (fun _ _ => False) (.coll tyC)
      false (.charSymbol [(117, .coll [.num 1])]) (.coll tyC) ∧
    Parses noEnv (.charSymbol [(117, .coll [.num 1])]) (.at 0 [] (.coll tyC)) ⟨[.coll []], []⟩ [117]
      (.error .noCompile) := by
  refine ⟨.charSymbol ?_ rfl, parses_of_parseN (n := 12) rfl⟩
  simp [Ty.has, NumKind.inRange]

/-- Alternatives of patterns without value: `(lit('a') | lit('b')) >> uint_ >> ',' >> uint_` into a
tuple of two numbers does not compile. -/
theorem C63_refuted_alternative : Documented true (· = .unsigned 32) (fun _ _ => False) (.tup [tyU, tyU])
      false (.alt [litC 97, litC 98]) .nil ∧
    Documented true (· = .unsigned 32) (fun _ _ => False) (.tup [tyU, tyU])
      false (.seq [.alt [litC 97, litC 98], uint_, litC 44, uint_]) (.tup [tyU, tyU]) ∧
    Parses noEnv (.seq [.alt [litC 97, litC 98], uint_, litC 44, uint_]) (.at 0 [] (.tup [tyU, tyU]))
      ⟨[.tup [.num 0, .num 0]], []⟩ [97, 49, 44, 50] (.error .noCompile) := by
  have h : Documented true (· = .unsigned 32) (fun _ _ => False) (.tup [tyU, tyU])
      false (.alt [litC 97, litC 98]) .nil := by
    refine .alt (by simp) ?_
    simp only [List.forall_mem_cons]
    exact ⟨doc_lit, doc_lit, fun _ h => (by cases h)⟩
  refine ⟨h, .seqMade (vals := [uint_, uint_]) (Ds := [tyU, tyU]) rfl
    (.cons _ (.cons_cons _ (.cons _ (.refl _)))) ?_ ?_ rfl rfl, parses_of_parseN (n := 14) rfl⟩
  · simp only [List.forall_mem_cons]
    exact ⟨fun _ => h, fun h => (by simp at h), fun _ => doc_lit, fun h => (by simp at h),
      fun _ h => (by cases h)⟩
  · intro i p D h1 h2
    match i with
    | 0 => cases h1; cases h2; exact .uint rfl
    | 1 => cases h1; cases h2; exact .uint rfl
    | i + 2 => simp at h2

end Abu
