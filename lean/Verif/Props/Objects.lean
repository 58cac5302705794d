import Verif.Proofs.Objects
import Verif.Proofs.Eval
/-
C64: several parser objects used in turns.
-/
namespace Abu

/-- C64: in a program that uses several parser objects in any order, every object gives the answer,
leaves the text unread, has the value in its destination and makes the calls of actions that it
would if it were the only one, provided that the destinations do not overlap and no object's
actions act on what those of another depend on. -/
theorem C64_same_as_alone (D : Nat → Decl) (own : Nat → Nat → Bool) (m0 : Mem) (hown : Owned D own)
    (hex : ∀ i, (D i).dst.Exists m0) (hap : ∀ i j, i ≠ j → (D i).dst.Apart (D j).dst)
    (ops : List UOp) (θ : Nat → ObjState) (m : Mem) (h : Program D noObjects m0 ops (.ok (θ, m)))
    (i : Nat) (hi : Creates i ops) :
    ∃ r m1 rest,
      MakeParserRun (D i).env (D i).pat (D i).dst m0 (usesOf i ops) (.ok (r, m1, rest)) ∧
      (θ i).Shows r rest ∧ (D i).dst.SameIn m m1 ∧
      m.log.filter (fun e => own i e.action) = m1.log.filter (fun e => own i e.action) := by
  obtain ⟨φ, μ, hI⟩ := h.small hown (Inv.start hex hap)
  have hh := hI.holds i
  obtain ⟨r, rest, hs⟩ := hh.shows (h.present rfl (.inr hi))
  have hr := (hh.verdict hs _).2 rfl
  rw [List.nil_append] at hr
  obtain ⟨m1, ψ, h1, h2, h3, h4⟩ := small_alone hown hex hap i hr
  refine ⟨r, m1, rest, h1, hs, ?_, (hI.host i).log.trans h2.log.symm⟩
  have hd := hI.dst i
  cases hD : (D i).dst with
  | nil => trivial
  | «at» o q t =>
    rw [hD] at hd h3 h4
    simp only [smallDst, Ref.move, List.append_nil, Ref.at.injEq] at hd h3
    have hlt : 0 < (μ i).objs.length := h4
    have hv := List.getElem?_eq_getElem hlt
    have e1 := (hI.host i).val 0 _ hv
    have e2 := h2.val 0 _ hv
    rw [hd.1, hd.2.1] at e1
    rw [h3.1, h3.2.1] at e2
    exact e1.trans e2.symm

/-- C64: if every object, alone, goes without undefined behaviour, so does the program, in
whatever order it uses them. -/
theorem C64_goes_through (D : Nat → Decl) (own : Nat → Nat → Bool) (m0 : Mem) (hown : Owned D own)
    (hex : ∀ i, (D i).dst.Exists m0) (hap : ∀ i j, i ≠ j → (D i).dst.Apart (D j).dst)
    (ops : List UOp) (hord : Ordered (fun _ => False) ops)
    (h : ∀ i, Creates i ops → ∃ x,
      MakeParserRun (D i).env (D i).pat (D i).dst m0 (usesOf i ops) (.ok x)) :
    ∃ θ m, Program D noObjects m0 ops (.ok (θ, m)) := by
  obtain ⟨v, hv⟩ := Program.exists hown ops (Inv.start hex hap)
    (hord.congr fun i => ⟨False.elim, fun h => h rfl⟩) fun i hi => by
      obtain ⟨x, hx⟩ := h i (hi.resolve_left fun h => h rfl)
      obtain ⟨v', h1, _⟩ := alone_small hown hex hap hx
      exact ⟨v', h1⟩
  match v, hv with
  | .ok (θ, m), hv => exact ⟨θ, m, hv⟩
  | .error e, hv =>
    obtain ⟨i, hi, he⟩ := hv.small hown (Inv.start hex hap)
    obtain ⟨x, hx⟩ := h i (hi.resolve_left fun h => h rfl)
    cases hx.unique (small_alone_error hown hex hap he)

/-- C64: undefined behaviour of the program is undefined behaviour of one of its objects, alone. -/
theorem C64_error_is_of_one_alone (D : Nat → Decl) (own : Nat → Nat → Bool) (m0 : Mem)
    (hown : Owned D own) (hex : ∀ i, (D i).dst.Exists m0)
    (hap : ∀ i j, i ≠ j → (D i).dst.Apart (D j).dst) (ops : List UOp) (e : Err)
    (h : Program D noObjects m0 ops (.error e)) :
    ∃ i, Creates i ops ∧
      MakeParserRun (D i).env (D i).pat (D i).dst m0 (usesOf i ops) (.error e) := by
  obtain ⟨i, hi, he⟩ := h.small hown (Inv.start hex hap)
  exact ⟨i, hi.resolve_left fun h => h rfl, small_alone_error hown hex hap he⟩

/-- C64: two programs that do the same with an object, in whatever order with what they do with
others, get the same from it. -/
theorem C64_order_is_not_observable (D : Nat → Decl) (own : Nat → Nat → Bool) (m0 : Mem)
    (hown : Owned D own) (hex : ∀ i, (D i).dst.Exists m0)
    (hap : ∀ i j, i ≠ j → (D i).dst.Apart (D j).dst) (ops ops' : List UOp)
    (θ θ' : Nat → ObjState) (m m' : Mem) (h : Program D noObjects m0 ops (.ok (θ, m)))
    (h' : Program D noObjects m0 ops' (.ok (θ', m'))) (i : Nat) (hi : Creates i ops)
    (hi' : Creates i ops') (hu : usesOf i ops = usesOf i ops') :
    ∃ r rest, (θ i).Shows r rest ∧ (θ' i).Shows r rest ∧ (D i).dst.SameIn m m' := by
  obtain ⟨r, m1, rest, h1, h2, h3, _⟩ := C64_same_as_alone D own m0 hown hex hap ops θ m h i hi
  obtain ⟨r', m1', rest', h1', h2', h3', _⟩ :=
    C64_same_as_alone D own m0 hown hex hap ops' θ' m' h' i hi'
  rw [← hu] at h1'
  cases h1.unique h1'
  refine ⟨r, rest, h2, h2', ?_⟩
  cases hD : (D i).dst with
  | nil => trivial
  | «at» o q t =>
    rw [hD] at h3 h3'
    exact Eq.trans h3 (Eq.symm h3')

/-- C64: what is not part of a destination of one of the objects has the same value in the end. -/
theorem C64_rest_is_unchanged (D : Nat → Decl) (m0 : Mem) (ops : List UOp) (θ : Nat → ObjState)
    (m : Mem) (h : Program D noObjects m0 ops (.ok (θ, m))) (o : Nat) (q : List Nat) (v : Val)
    (hv : m0.look o q = .ok v) (hd : ∀ i, Creates i ops → (D i).dst.Misses o q) :
    m.look o q = .ok v :=
  h.misses (fun i hi => hd i (hi.resolve_left fun h => h rfl)) hv
    (fun _ _ _ h => by cases h) θ m rfl

/-! ### Examples -/

/-- Two objects: a number with a semicolon into object 0 of the memory, and characters, with an
action that gives back every character together with the number of calls before (of its own), into
slot 1 of object 1. -/
def exObjects : Nat → Decl
  | 0 => ⟨fun _ => none, .seq [.uint 10 1 0, litC 59], .at 0 [] .int⟩
  | 1 => ⟨fun _ => none, .rep 0 0 (.action ⟨7, .char, false, false, fun log v _ =>
      (match v with
        | .num c => .num (c + (log.filter fun e => e.action == 7).length)
        | v => v, .nil)⟩ (.char .any)), .at 1 [1] .string⟩
  | _ => ⟨fun _ => none, .pass, .nil⟩

def exOwn : Nat → Nat → Bool := fun i a => i == 1 && a == 7

def exMem : Mem := ⟨[.num 0, .tup [.num 5, .coll []]], []⟩

/-- Buffers for both objects in turns. -/
def exTurns : List UOp :=
  [.make 0, .use 0 (.add [49] false), .make 1, .use 1 (.add [97] false), .use 0 .consume,
    .use 1 .consume, .use 0 (.add [50, 59, 60] true), .use 1 (.add [97] true), .use 0 .consume,
    .use 1 .consume]

theorem exObjects_owned : Owned exObjects exOwn
  | 0 => by simp [exObjects, Decl.Acts, Pat.Acts, Pat.ActsAll, litC, charP]
  | 1 => by
    refine ⟨⟨⟨fun log v b => ?_, fun j hj => ?_⟩, trivial⟩, fun _ _ h => by cases h⟩
    · simp [exOwn]
    · simp [exOwn, hj]
  | _ + 2 => by simp [exObjects, Decl.Acts, Pat.Acts]

theorem exObjects_exists : ∀ i, (exObjects i).dst.Exists exMem
  | 0 => ⟨.num 0, rfl⟩
  | 1 => ⟨.coll [], rfl⟩
  | _ + 2 => trivial

theorem exObjects_apart : ∀ i j, i ≠ j → (exObjects i).dst.Apart (exObjects j).dst
  | 0, 0, h => (h rfl).elim
  | 0, 1, _ => .inl (by decide)
  | 0, _ + 2, _ => trivial
  | 1, 0, _ => .inl (by decide)
  | 1, 1, h => (h rfl).elim
  | 1, _ + 2, _ => trivial
  | _ + 2, _, _ => trivial

example : Ordered (fun _ => False) exTurns := by simp [exTurns, Ordered]

theorem exObjects_alone0 : MakeParserRun (exObjects 0).env (exObjects 0).pat (exObjects 0).dst exMem
    (usesOf 0 exTurns) (.ok (.SUCCESS, ⟨[.num 12, .tup [.num 5, .coll []]], []⟩, [60])) :=
  makeParser_of_sessionN (n := 12) rfl rfl

theorem exObjects_alone1 : MakeParserRun (exObjects 1).env (exObjects 1).pat (exObjects 1).dst exMem
    (usesOf 1 exTurns) (.ok (.SUCCESS, ⟨[.num 0, .tup [.num 5, .coll [.num 97, .num 98]],
      .num 97, .num 97, .indet], [⟨7, .num 97⟩, ⟨7, .num 97⟩]⟩, [])) :=
  makeParser_of_sessionN (n := 12) rfl rfl

/-- The program with both goes through, with the results each has alone. -/
example : ∃ θ m, Program exObjects noObjects exMem exTurns (.ok (θ, m)) ∧
    (θ 0).Shows .SUCCESS [60] ∧ m.look 0 [] = .ok (.num 12) ∧
    (θ 1).Shows .SUCCESS [] ∧ m.look 1 [1] = .ok (.coll [.num 97, .num 98]) ∧
    m.look 1 [0] = .ok (.num 5) := by
  have hc : ∀ i, Creates i exTurns ↔ i = 0 ∨ i = 1 := by
    intro i; simp only [exTurns, Creates, or_false, eq_comm]
  obtain ⟨θ, m, h⟩ := C64_goes_through exObjects exOwn exMem exObjects_owned exObjects_exists
    exObjects_apart exTurns (by simp [exTurns, Ordered]) fun i hi => by
      rcases (hc i).1 hi with rfl | rfl
      · exact ⟨_, exObjects_alone0⟩
      · exact ⟨_, exObjects_alone1⟩
  obtain ⟨r, m1, rest, h1, h2, h3, _⟩ := C64_same_as_alone exObjects exOwn exMem exObjects_owned
    exObjects_exists exObjects_apart exTurns θ m h 0 ((hc 0).2 (.inl rfl))
  cases exObjects_alone0.unique h1
  obtain ⟨r', m1', rest', h1', h2', h3', _⟩ := C64_same_as_alone exObjects exOwn exMem exObjects_owned
    exObjects_exists exObjects_apart exTurns θ m h 1 ((hc 1).2 (.inr rfl))
  cases exObjects_alone1.unique h1'
  refine ⟨θ, m, h, h2, h3, h2', h3', C64_rest_is_unchanged exObjects exMem exTurns θ m h 1 [0] _ rfl
    fun i hi => ?_⟩
  rcases (hc i).1 hi with rfl | rfl
  · exact .inl (by decide)
  · exact .inr (.here (by decide))

/-! ### The conditions are needed -/

/-- Two objects with the same destination. -/
def exShared : Nat → Decl
  | 0 => ⟨fun _ => none, .rep 0 0 (.char .any), .at 0 [] .string⟩
  | 1 => ⟨fun _ => none, .rep 0 0 (.char .any), .at 0 [] .string⟩
  | _ => ⟨fun _ => none, .pass, .nil⟩

def exSharedTurns : List UOp :=
  [.make 0, .make 1, .use 0 (.add [97] true), .use 1 (.add [98] true), .use 0 .consume, .use 1 .consume]

theorem evals_of_run {σ : Type} [DataSource σ] {env p d b st} {w : World σ Mem} (n : Nat) {x}
    (h : run env n p d b st w = .ok x) : Evals env p d b st w (.ok x) := ⟨fun h => (by cases h), n, h⟩

/-- C64: with a shared destination the objects do interfere. -/
theorem C64_destinations_must_not_overlap : ∃ θ m,
    Program exShared noObjects ⟨[.coll []], []⟩ exSharedTurns (.ok (θ, m)) ∧
    ∃ m1, MakeParserRun (exShared 0).env (exShared 0).pat (exShared 0).dst ⟨[.coll []], []⟩
        (usesOf 0 exSharedTurns) (.ok (.SUCCESS, m1, [])) ∧
      ¬ (exShared 0).dst.SameIn m m1 := by
  refine ⟨_, _, .make rfl rfl (.make rfl rfl (.add rfl rfl (.add rfl rfl (.verdict (rest := []) rfl
    (evals_of_run 9 rfl) (by decide) (.done rfl) (.verdict (rest := []) rfl (evals_of_run 9 rfl) (by decide)
    (.done rfl) .nil))))), ?_⟩
  refine ⟨_, makeParser_of_sessionN (n := 9) rfl rfl, ?_⟩
  intro h
  change Except.ok _ = Except.ok _ at h
  cases h

/-- Two objects with actions that give back whether there were calls before, of any action. -/
def exCounting : Nat → Decl
  | 0 => ⟨fun _ => none, .action ⟨0, .nil, false, false, fun log _ _ => (.num (if log.isEmpty then 0 else 1), .nil)⟩
      (.char .any), .at 0 [] .int⟩
  | 1 => ⟨fun _ => none, .action ⟨1, .nil, false, false, fun log _ _ => (.num (if log.isEmpty then 0 else 1), .nil)⟩
      (.char .any), .at 1 [] .int⟩
  | _ => ⟨fun _ => none, .pass, .nil⟩

/-- C64: with actions that depend on calls of the other object's actions the objects do
interfere, though their destinations are apart. -/
theorem C64_actions_must_not_share : ∃ θ m,
    Program exCounting noObjects ⟨[.num 0, .num 0], []⟩ exSharedTurns (.ok (θ, m)) ∧
    ∃ m1, MakeParserRun (exCounting 1).env (exCounting 1).pat (exCounting 1).dst ⟨[.num 0, .num 0], []⟩
        (usesOf 1 exSharedTurns) (.ok (.SUCCESS, m1, [])) ∧
      ¬ (exCounting 1).dst.SameIn m m1 := by
  refine ⟨_, _, .make rfl rfl (.make rfl rfl (.add rfl rfl (.add rfl rfl (.verdict (rest := []) rfl
    (evals_of_run 4 rfl) (by decide) (.done rfl) (.verdict (rest := []) rfl (evals_of_run 4 rfl) (by decide)
    (.done rfl) .nil))))), ?_⟩
  refine ⟨⟨[.num 0, .num 0], [⟨1, .nil⟩]⟩, makeParser_of_sessionN (n := 4) rfl rfl, ?_⟩
  intro h
  change (Except.ok (.num 1) : Except Err Val) = .ok (.num 0) at h
  simp at h

end Abu
