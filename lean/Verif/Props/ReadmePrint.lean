import Verif.Props.Readme
import Verif.Proofs.ReadmePrint
/-
C87: what a program writes is read back by the examples of the README.
-/
namespace Abu

/-- C87, for all lists without the least `int`: the list parser of the README reads back the list that was written,
and leaves what follows it. Full statement: the same for all lists of `int`s, see C87_refuted. -/
theorem C87_list_partial (env : Env) (ns : List Int) (hns : ∀ n ∈ ns, IntButLeast n) (rest : List Ch)
    (hr : ∀ c ∈ rest, IsChar c) (m : Mem) (o : Nat) (ho : m.objs[o]? = some (.coll [])) :
    ∃ m', Answers env readmeList (.at o [] (.coll .int)) m (bracketed ns ++ rest) (.ok (.SUCCESS, m', rest)) ∧
      m'.objs[o]? = some (.coll (ns.map .num)) := by
  obtain ⟨m', h1, h2, _⟩ := C46_list env _ rest ns (fun c hc => (List.mem_append.1 hc).elim
    (bracketed_chars ns c) (hr c)) (bracketed_reads ns) (fun n hn => (hns n hn).fits) m o [] ho
  exact ⟨m', h1, by simpa using h2⟩

/-- C87: likewise for rectangles. -/
theorem C87_rectangle_partial (env : Env) (ns : List Int) (hl : ns.length = 2 ∨ ns.length = 4)
    (hns : ∀ n ∈ ns, IntButLeast n) (rest : List Ch) (hr : ∀ c ∈ rest, IsChar c) (m : Mem) (id o : Nat)
    (ho : o < m.objs.length) :
    ∃ m', Answers env readmeRectangle (.at o [] (.user id)) m (bracketed ns ++ rest) (.ok (.SUCCESS, m', rest)) ∧
      m'.objs[o]? = some (.obj id (ns.map .num)) := by
  obtain ⟨m', h1, h2, _⟩ := C47_rectangle env _ rest ns (fun c hc => (List.mem_append.1 hc).elim
    (bracketed_chars ns c) (hr c)) (bracketed_reads ns) hl (fun n hn => (hns n hn).fits) m id o ho
  exact ⟨m', h1, h2⟩

/-- C87: if the least `int` is in the list, it can be written but not read back: the behaviour is undefined. -/
theorem C87_least (env : Env) (ns : List Int) (h : -2147483648 ∈ ns) (rest : List Ch) (hr : ∀ c ∈ rest, IsChar c)
    (m : Mem) (o : Nat) (ho : m.objs[o]? = some (.coll [])) :
    ∃ err, (err = .ubOverflow ∨ err = .ubUninit) ∧
      Answers env readmeList (.at o [] (.coll .int)) m (bracketed ns ++ rest) (.error err) := by
  refine C46_undefined env _ (fun c hc => (List.mem_append.1 hc).elim (bracketed_chars ns c) (hr c)) ?_ m o [] ho
  cases ns with
  | nil => cases h
  | cons n ns =>
    have h93 := noDigit_char (c := 93) (.inr rfl)
    exact ⟨[], _, _, 93 :: rest, by simp [bracketed], no_spaces, commaSeparated_listed n ns,
      noDigit_spaces (w := []) no_spaces h93.1 h93.2.2, _, h, by decide⟩

/-- C87: likewise for rectangles. -/
theorem C87_least_rectangle (env : Env) (ns : List Int) (hl : ns.length ≤ 4) (h : -2147483648 ∈ ns) (rest : List Ch)
    (hr : ∀ c ∈ rest, IsChar c) (m : Mem) (id o : Nat) :
    ∃ err, (err = .ubOverflow ∨ err = .ubUninit) ∧
      Answers env readmeRectangle (.at o [] (.user id)) m (bracketed ns ++ rest) (.error err) := by
  refine C47_undefined env _ (fun c hc => (List.mem_append.1 hc).elim (bracketed_chars ns c) (hr c)) ?_ m id o
  cases ns with
  | nil => cases h
  | cons n ns =>
    have h93 := noDigit_char (c := 93) (.inr rfl)
    exact ⟨[], _, _, 93 :: rest, by simp [bracketed], no_spaces, commaSeparated_listed n ns, hl,
      noDigit_spaces (w := []) no_spaces h93.1 h93.2.2, _, h, by decide⟩

/-- C87: exactly the lists without the least `int` are read back. -/
theorem C87_iff (env : Env) (ns : List Int) (hns : ∀ n ∈ ns, fitsInt n) (rest : List Ch) (hr : ∀ c ∈ rest, IsChar c)
    (m : Mem) (o : Nat) (ho : m.objs[o]? = some (.coll [])) :
    (∃ m', Answers env readmeList (.at o [] (.coll .int)) m (bracketed ns ++ rest) (.ok (.SUCCESS, m', rest)) ∧
      m'.objs[o]? = some (.coll (ns.map .num))) ↔ -2147483648 ∉ ns := by
  constructor
  · rintro ⟨m', h1, _⟩ h
    obtain ⟨_, _, h2⟩ := C87_least env ns h rest hr m o ho
    cases h1.unique h2
  · intro h
    refine C87_list_partial env ns (fun n hn => ?_) rest hr m o ho
    have h1 := hns n hn
    simp only [fitsInt, Bool.and_eq_true, decide_eq_true_eq] at h1
    have h2 : n ≠ -2147483648 := fun e => h (e ▸ hn)
    unfold IntButLeast
    omega

/-- C87 is false of the list of the least `int`. -/
theorem C87_refuted : ¬ ∀ (ns : List Int), (∀ n ∈ ns, fitsInt n) →
    ∃ m', Answers (fun _ => none) readmeList (.at 0 [] (.coll .int)) ⟨[.coll []], []⟩ (bracketed ns)
      (.ok (.SUCCESS, m', [])) ∧ m'.objs[0]? = some (.coll (ns.map .num)) := by
  intro h
  obtain ⟨m', h1, _⟩ := h [-2147483648] (by decide)
  obtain ⟨err, _, h2⟩ := C87_least (fun _ => none) [-2147483648] (by simp) [] (fun _ h => by cases h) ⟨[.coll []], []⟩ 0 rfl
  rw [List.append_nil] at h2
  cases h1.unique h2

/-- C87: different lists are written differently, even if something follows them. -/
theorem C87_injective (ns ns' : List Int) (rest rest' : List Ch)
    (h : bracketed ns ++ rest = bracketed ns' ++ rest') : ns = ns' ∧ rest = rest' := by
  obtain ⟨rfl, h2⟩ := C46_one_list h (bracketed_reads ns) (bracketed_reads ns')
  exact ⟨rfl, List.append_cancel_left h⟩

/-- `[10,-3]` is written like this. -/
example : bracketed [10, -3] = [91, 49, 48, 44, 45, 51, 93] := by
  simp [bracketed, commaSeparated, written, decimal]
example : ∃ m', Answers (fun _ => none) readmeList (.at 0 [] (.coll .int)) ⟨[.coll []], []⟩
    (bracketed [2147483647, -2147483647] ++ [33]) (.ok (.SUCCESS, m', [33])) ∧
    m'.objs[0]? = some (.coll [.num 2147483647, .num (-2147483647)]) :=
  C87_list_partial _ _ (by unfold IntButLeast; decide) _ (by decide) _ 0 rfl
example : ∃ m', Answers (fun _ => none) readmeRectangle (.at 0 [] (.user 9)) ⟨[.obj 9 []], []⟩
    (bracketed [1, 2, -3, 4] ++ []) (.ok (.SUCCESS, m', [])) ∧
    m'.objs[0]? = some (.obj 9 [.num 1, .num 2, .num (-3), .num 4]) :=
  C87_rectangle_partial _ _ (by decide) (by unfold IntButLeast; decide) _ (by decide) _ 9 0 (by decide)
example : ∃ err, (err = .ubOverflow ∨ err = .ubUninit) ∧ Answers (fun _ => none) readmeRectangle (.at 0 [] (.user 9))
    ⟨[.obj 9 []], []⟩ (bracketed [0, -2147483648] ++ []) (.error err) :=
  C87_least_rectangle _ _ (by decide) (by simp) _ (by decide) _ 9 0
example : ∃ m', Answers (fun _ => none) readmeList (.at 0 [] (.coll .int)) ⟨[.coll []], []⟩
    (bracketed [2147483647, 0] ++ [93]) (.ok (.SUCCESS, m', [93])) ∧ m'.objs[0]? = some (.coll [.num 2147483647, .num 0]) :=
  (C87_iff _ _ (by decide) _ (by decide) _ 0 rfl).2 (by decide)

end Abu
