import Verif.Proofs.Action
import Verif.Proofs.Eval
import Verif.Proofs.InverseSeq
/-
C32: how the children of a sequence share a tuple. C34: when actions are called.
-/
namespace Abu

/-! ### C32 -/

/-- C32, without actions that write through an `ActionParam` (`quiet`): a sequence parsed into a
tuple does to the slots of the tuple what its children do each alone. The k-th child that produces
a value works on slot k, the other children on no slot; slots of children that were not reached
keep their value. -/
theorem C32_sequence_fills_slots_partial (env : Env) (ps : List Pat) (ts : List Ty)
    (vs ws : List Val) (log log' : List LogEntry) (t rest : List Ch) (r : Res) (he : env.quiet)
    (hq : Pat.quiets ps = true) (hne : ps ≠ []) (hty : ∀ ty ∈ ts, ty ≠ .nil)
    (h : EachAlone env ps ts vs log t r ws log' rest) :
    Alone env (.seq ps) (.tup ts) (.tup vs) log t r (.tup ws) log' rest :=
  Alone.seq he h hne hq hty

/-- C32: the same when the destination is not a tuple: all children that produce a value work on
it, in turn. -/
theorem C32_sequence_shares_destination_partial (env : Env) (ps : List Pat) (ty : Ty)
    (v w : Val) (log log' : List LogEntry) (t rest : List Ch) (r : Res) (he : env.quiet)
    (hq : Pat.quiets ps = true) (hne : ps ≠ []) (hty : ∀ ts, ty ≠ .tup ts)
    (h : EachInto env ty ps v log t r w log' rest) :
    Alone env (.seq ps) ty v log t r w log' rest :=
  Alone.seqInto he h hne hq hty

/-- C32, exactly: however a parse into a tuple ends, the slots hold what the children leave there
each alone, and the calls and the unread rest are theirs. -/
theorem C32_slots_exactly_partial (env : Env) (ps : List Pat) (ts : List Ty)
    (vs : List Val) (v' : Val) (log log' : List LogEntry) (t rest : List Ch) (r : Res) (he : env.quiet)
    (hq : Pat.quiets ps = true) (hne : ps ≠ []) (hty : ∀ ty ∈ ts, ty ≠ .nil)
    (hlen : vs.length = ts.length) :
    Alone env (.seq ps) (.tup ts) (.tup vs) log t r v' log' rest ↔
      ∃ ws, v' = .tup ws ∧ EachAlone env ps ts vs log t r ws log' rest :=
  ⟨fun h => h.unseq he hq hty hlen,
    fun ⟨_, hv, h⟩ => hv ▸ Alone.seq he h hne hq hty⟩

/-- C32, exactly, when the destination is not a tuple. -/
theorem C32_shared_exactly_partial (env : Env) (ps : List Pat) (ty : Ty)
    (v w : Val) (log log' : List LogEntry) (t rest : List Ch) (r : Res) (he : env.quiet)
    (hq : Pat.quiets ps = true) (hne : ps ≠ []) (hty : ∀ ts, ty ≠ .tup ts) :
    Alone env (.seq ps) ty v log t r w log' rest ↔ EachInto env ty ps v log t r w log' rest :=
  ⟨fun h => h.unseqInto he hq hty, fun h => Alone.seqInto he h hne hq hty⟩

/-- C32: a child working on slot `k`, in any context, on any data source, suspended any number of
times, changes no other slot and no other object. -/
theorem C32_child_writes_only_its_slot_partial {σ : Type} [DataSource σ] (env : Env) (p : Pat)
    (req : Req) (s : Option Pat) (sk : Prog) (o k : Nat) (q : List Nat) (ty : Ty) (bnd : Ref)
    (w w' : World σ Mem) (res : Res) (he : env.quiet) (hp : p.quiet = true)
    (hs : SkipperOf s sk) (hsq : ∀ x, s = some x → x.quiet = true)
    (hu : Used env (elabP sk req p) (.at o (q ++ [k]) ty) bnd w res w') :
    (∀ (j : Nat) v, j ≠ k → w.mem.look o (q ++ [j]) = .ok v → w'.mem.look o (q ++ [j]) = .ok v) ∧
      ∀ (o' : Nat) q' v, o' ≠ o → w.mem.look o' q' = .ok v → w'.mem.look o' q' = .ok v := by
  have h1 : sk.quiet = true := by
    cases hs with
    | none => rfl
    | some x => exact elab_quiet x (hsq x rfl) rfl
  have hP := elab_quiet (r := req) p hp h1
  constructor
  · intro j v hj hv
    exact hu.keeps_other (.inl (.inr (snoc_diverge q (Ne.symm hj)))) hP he hv
  · intro o' q' v ho hv
    exact hu.keeps_other (.inl (.inl (Ne.symm ho))) hP he hv

/-- An action that takes an `ActionParam` can write any part of the tuple: `f` in
`int_[f] >> int_` (`f` assigns the whole tuple through `ActionParam::dst`). -/
def exTupleAct : Act := ⟨0, .int, false, true, fun _ v _ => (v, .tup [.num 8, .num 9])⟩

/-- C32 is false with such actions: the first child writes slot 1. -/
theorem C32_refuted : Parses (fun _ => none) (.seq [.action exTupleAct int_, .eoi])
    (.at 0 [] (.tup [.int, .int])) ⟨[.tup [.num 1, .num 2]], []⟩ [53]
    (.ok (.SUCCESS, ⟨[.tup [.num 5, .num 9], .num 5], [⟨0, .num 5⟩]⟩, [])) :=
  parses_of_parseN (n := 12) rfl

/-- `char_('a') >> ',' >> uint_ >> char_('b')` on "a,12c": the last child fails. -/
def exTuple : List Pat := [charP 97, litC 44, uint_, charP 98]
example : EachAlone (fun _ => none) exTuple [.char, .unsigned, .char]
    [.num 0, .num 7, .num 5] [] [97, 44, 49, 50, 99] .FAILURE [.num 97, .num 12, .num 5] [] [99] :=
  .value rfl ⟨_, .of_parses (parses_of_parseN (n := 12) rfl), rfl, rfl⟩ <|
  .ignore rfl ⟨_, .of_parses (parses_of_parseN (n := 12) rfl), rfl⟩ <|
  .value rfl ⟨_, .of_parses (parses_of_parseN (n := 12) rfl), rfl, rfl⟩ <|
  .valueFails rfl ⟨_, .of_parses (parses_of_parseN (n := 12) rfl), rfl, rfl⟩
example : Pat.quiets exTuple = true := rfl

/-- `char_('a') >> ',' >> char_('b')` into a string. -/
example : EachInto (fun _ => none) .string [charP 97, litC 44, charP 98] (.coll [.num 5]) []
    [97, 44, 98, 99] .SUCCESS (.coll [.num 5, .num 97, .num 98]) [] [99] :=
  .value rfl ⟨_, .of_parses (parses_of_parseN (n := 12) rfl), rfl, rfl⟩ <|
  .ignore rfl ⟨_, .of_parses (parses_of_parseN (n := 12) rfl), rfl⟩ <|
  .value rfl ⟨_, .of_parses (parses_of_parseN (n := 12) rfl), rfl, rfl⟩ .nil

/-- `uint_` working on slot 1 of a tuple. -/
example : Used (fun _ => none) (topParser uint_) (.at 0 ([] ++ [1]) .unsigned) .nil
    (⟨⟨[49, 50], 0, [], true⟩, ⟨[.tup [.num 3, .num 4]], []⟩⟩ : World Cursor Mem) .SUCCESS
    ⟨⟨[49, 50], 2, [], true⟩, ⟨[.tup [.num 3, .num 12]], []⟩⟩ :=
  ⟨_, _, ⟨[49, 50], 0, [], true⟩, rfl, .last ⟨by simp, 12, rfl⟩ (by simp)⟩

/-! ### C34 -/

/-- C34: the verdict and the consumption of `p[f]` are those of `p`, whatever `f` is and whatever
the destinations are. -/
theorem C34_recognises_what_p_recognises (env : Env) (a : Act) (p : Pat) (t : List Ch)
    (o : Option (List Ch)) : (Recognises env (.action a p) t o → Yields env p t o) ∧
      (Recognises env p t o → Yields env (.action a p) t o) := by
  constructor
  · intro h
    obtain ⟨r, rest, hg, hf⟩ := h.ghost
    rw [topParser_action] at hg
    exact yields_of_ghost (ghost_action.1 hg) hf
  · intro h
    obtain ⟨r, rest, hg, hf⟩ := h.ghost
    refine yields_of_ghost ?_ hf
    rw [topParser_action]
    exact ghost_action.2 hg

/-- C34, for every parser of an action, wherever it is used, on any data source, suspended any
number of times: it ends as the parser `P` of its operand, working on the parameter of the function.
If that failed, nothing else happened. If it succeeded, the function was called exactly once, after
all calls made inside the operand, with the value the operand produced. -/
theorem C34_called_once_after_success {σ : Type} [DataSource σ] (env : Env) (a : Act) (P : Prog)
    (dst bnd : Ref) (w w' : World σ Mem) (r : Res)
    (h : Used env (.action a P) dst bnd w r w') :
    ∃ w1, Used env P (w.mem.alloc a.landing).1 bnd ⟨w.ds, (w.mem.alloc a.landing).2⟩ r w1 ∧
      w'.ds = w1.ds ∧ (r = .FAILURE → w'.mem = w1.mem) ∧
      (r = .SUCCESS → ∃ v, w1.mem.read (w.mem.alloc a.landing).1 = .ok v ∧ v ≠ .indet ∧
        w'.mem.log = w1.mem.log ++ [⟨a.id, v⟩]) := by
  obtain ⟨w1, h1, h2, h3, h4⟩ := used_action.1 h
  exact ⟨w1, h1, h2, fun hr => h4 (by rw [hr]; simp), fun hr => act_log (h3 hr)⟩

/-- C34: conversely, if the operand fails so does the action, and nothing else happens. -/
theorem C34_failure_conversely {σ : Type} [DataSource σ] (env : Env) (a : Act) (P : Prog)
    (dst bnd : Ref) (w w1 : World σ Mem)
    (h : Used env P (w.mem.alloc a.landing).1 bnd ⟨w.ds, (w.mem.alloc a.landing).2⟩ .FAILURE w1) :
    Used env (.action a P) dst bnd w .FAILURE w1 :=
  used_action.2 ⟨w1, h, rfl, by simp, fun _ => rfl⟩

/-- C34: conversely, if the operand succeeds, having produced a value, so does an action that
returns nothing and takes no `ActionParam`; its only effect is the one call. -/
theorem C34_success_conversely {σ : Type} [DataSource σ] (env : Env) (a : Act) (P : Prog)
    (dst bnd : Ref) (w w1 : World σ Mem) (v : Val) (hv : a.void = true) (hp : a.param = false)
    (h : Used env P (w.mem.alloc a.landing).1 bnd ⟨w.ds, (w.mem.alloc a.landing).2⟩ .SUCCESS w1)
    (hr : w1.mem.read (w.mem.alloc a.landing).1 = .ok v) (hne : v ≠ .indet) :
    Used env (.action a P) dst bnd w .SUCCESS
      ⟨w1.ds, ⟨w1.mem.objs, w1.mem.log ++ [⟨a.id, v⟩]⟩⟩ := by
  refine used_action.2 ⟨w1, h, rfl, fun _ => ?_, by simp⟩
  rw [act_plain hp hr hne, hv]
  rfl

/-- C34: while the parser is suspended, exactly what happens in the operand has happened: the
function has not been called. -/
theorem C34_not_called_while_suspended {σ : Type} [DataSource σ] (env : Env) (a : Act) (P : Prog)
    (dst bnd : Ref) (w w' : World σ Mem) :
    Suspended env (.action a P) dst bnd w w' ↔
      Suspended env P (w.mem.alloc a.landing).1 bnd ⟨w.ds, (w.mem.alloc a.landing).2⟩ w' :=
  suspended_action

/-- C34: the parser of `p[f]` is the action parser over the parser of `p`. -/
theorem C34_applies_to (a : Act) (p : Pat) : topParser (.action a p) = .action a (topParser p) :=
  topParser_action a p

/-- C34, complete parses under every delivery schedule, success: the result of the function goes to
the destination. (`quiet`: inner actions do not write through an `ActionParam`.) -/
theorem C34_value (env : Env) (a : Act) (p : Pat) (ty : Ty) (u u' v : Val)
    (log log' : List LogEntry) (t rest : List Ch) (he : env.quiet) (hq : p.quiet = true)
    (ha : a.param = false) (hv : a.void = false) (hne : v ≠ .indet)
    (h : Landing env p a.landing log t .SUCCESS v log' rest)
    (hh : Receives ty u (a.fn log' v .nil).1 u') :
    Alone env (.action a p) ty u log t .SUCCESS u' (log' ++ [⟨a.id, v⟩]) rest :=
  Alone.action_value h hq he hne ha hv hh

/-- C34, likewise for a function that returns nothing. -/
theorem C34_void (env : Env) (a : Act) (p : Pat) (ty : Ty) (u v : Val)
    (log log' : List LogEntry) (t rest : List Ch) (he : env.quiet) (hq : p.quiet = true)
    (ha : a.param = false) (hv : a.void = true) (hne : v ≠ .indet)
    (h : Landing env p a.landing log t .SUCCESS v log' rest) :
    Alone env (.action a p) ty u log t .SUCCESS u (log' ++ [⟨a.id, v⟩]) rest :=
  Alone.action_void h hq he hne ha hv

/-- C34, likewise when the operand fails: no call, and nothing is written. -/
theorem C34_failure (env : Env) (a : Act) (p : Pat) (ty : Ty) (u v : Val)
    (log log' : List LogEntry) (t rest : List Ch) (he : env.quiet) (hq : p.quiet = true)
    (h : Landing env p a.landing log t .FAILURE v log' rest) :
    Alone env (.action a p) ty u log t .FAILURE u log' rest :=
  Alone.action_fail h hq he

/-- `(int_[f] >> ',')[g]` where `f` doubles and `g` takes no value. -/
def exDouble : Act :=
  ⟨1, .int, false, false, fun _ v _ => (match v with | .num i => .num (2 * i) | v => v, .nil)⟩
def exNoArg : Act := ⟨2, .nil, true, false, fun _ _ _ => (.nil, .nil)⟩
def exNested : Pat := .action exNoArg (.seq [.action exDouble int_, litC 44])
example : Landing (fun _ => none) int_ exDouble.landing [] [49, 50, 44] .SUCCESS (.num 12) [] [44] :=
  .value (by simp [exDouble, Ty.int])
    ⟨_, .of_parses (parses_of_parseN (n := 12) rfl), rfl, rfl⟩
example : Receives .string (.coll [.num 5]) (exDouble.fn [] (.num 12) .nil).1
    (.coll [.num 5, .num 24]) := .element ⟨by simp, by decide⟩
example : Landing (fun _ => none) (.seq [.action exDouble int_, litC 44]) exNoArg.landing []
    [49, 50, 44] .SUCCESS .nil [⟨1, .num 12⟩] [] :=
  .nil rfl ⟨_, .of_parses (parses_of_parseN (n := 12) rfl), rfl⟩
example : Landing (fun _ => none) (.seq [.action exDouble int_, litC 44]) exNoArg.landing []
    [49, 50, 45] .FAILURE .nil [⟨1, .num 12⟩] [45] :=
  .nil rfl ⟨_, .of_parses (parses_of_parseN (n := 12) rfl), rfl⟩
example : Used (fun _ => none) (topParser exNested) .nil .nil
    (⟨⟨[49, 50, 44], 0, [], true⟩, ⟨[], []⟩⟩ : World Cursor Mem) .SUCCESS
    ⟨⟨[49, 50, 44], 3, [], true⟩, ⟨[.num 12], [⟨1, .num 12⟩, ⟨2, .nil⟩]⟩⟩ :=
  ⟨_, _, ⟨[49, 50, 44], 0, [], true⟩, rfl, .last ⟨by simp, 12, rfl⟩ (by simp)⟩
/-- Suspended after "12": neither function has been called. -/
example : Suspended (fun _ => none) (topParser exNested) .nil .nil
    (⟨⟨[49, 50], 0, [], false⟩, ⟨[], []⟩⟩ : World Cursor Mem)
    ⟨⟨[49, 50], 2, [], false⟩, ⟨[.num 12], []⟩⟩ :=
  ⟨_, _, ⟨[49, 50], 0, [], false⟩, rfl, .more ⟨by simp, 12, rfl⟩ .none⟩
example : Recognises (fun _ => none) exNested [49, 50, 44] (some []) :=
  ⟨.nil, ⟨[], []⟩, _, _, _, parses_of_parseN (n := 12) rfl, .ok⟩

end Abu
