import Verif.Proofs.Throws
import Verif.Proofs.Eval
import Verif.Props.Grammar
import Verif.Props.Chunks
/-
C74: exceptions thrown by actions.
-/
namespace Abu

/-- C74: when a parse calls the actions `cs` and none of these calls throws, it ends as it does
without exceptions, in that way only. -/
theorem C74_nothing_thrown (T : Throwing) (env : Env) (p : Pat) (dst : Ref) (m m' : Mem)
    (t rest : List Ch) (r : Res) (cs : List LogEntry)
    (h : Parses env p dst m t (.ok (r, m', rest))) (hl : m'.log = m.log ++ cs)
    (hn : untilThrow T m.log cs = none) (v : VerdictT) :
    ParsesT T env p dst m t v ↔ v = .ends (.ok (r, m', rest)) := by
  obtain ⟨v', h1, h2⟩ := h.throws (T := T)
  have : v' = .ends (.ok (r, m', rest)) := by
    cases h2 with
    | ok => rfl
    | thrown hc hp =>
      have := hc.until (hl ▸ hp _ _ _ rfl)
      rw [hn] at this; cases this
  subst this
  exact ⟨fun hv => hv.unique h1, fun hv => hv ▸ h1⟩

/-- C74: when one of the calls throws, the exception leaves `parse` at once: the actions called are
those that were called up to then, and the one that threw is the last. -/
theorem C74_left_at_once (T : Throwing) (env : Env) (p : Pat) (dst : Ref) (m m' : Mem)
    (t rest : List Ch) (r : Res) (cs l : List LogEntry)
    (h : Parses env p dst m t (.ok (r, m', rest))) (hl : m'.log = m.log ++ cs)
    (hn : untilThrow T m.log cs = some l) :
    ∃ m1, m1.log = l ∧ ∀ v, ParsesT T env p dst m t v ↔ v = .thrown m1 := by
  obtain ⟨v', h1, h2⟩ := h.throws (T := T)
  cases h2 with
  | ok _ _ _ hc =>
    obtain ⟨x, hx, hy⟩ := hc
    rw [hl, List.append_cancel_left_eq] at hx
    subst hx
    rw [hn] at hy; cases hy
  | @thrown m1 _ hc hp =>
    have := hc.until (hl ▸ hp _ _ _ rfl)
    rw [hn] at this; cases this
    exact ⟨m1, rfl, fun v => ⟨fun hv => hv.unique h1, fun hv => hv ▸ h1⟩⟩

/-- C74: for a parser object, nothing thrown. -/
theorem C74_object_nothing_thrown (T : Throwing) (env : Env) (p : Pat) (dst : Ref) (m m' : Mem)
    (ops : List SOp) (rest : List Ch) (r : Res) (cs : List LogEntry)
    (h : MakeParserRun env p dst m ops (.ok (r, m', rest))) (hl : m'.log = m.log ++ cs)
    (hn : untilThrow T m.log cs = none) (v : VerdictT) :
    MakeParserRunT T env p dst m ops v ↔ v = .ends (.ok (r, m', rest)) := by
  obtain ⟨v', h1, h2⟩ := h.throws (T := T)
  have : v' = .ends (.ok (r, m', rest)) := by
    cases h2 with
    | ok => rfl
    | thrown hc hp =>
      have := hc.until (hl ▸ hp _ _ _ rfl)
      rw [hn] at this; cases this
  subst this
  exact ⟨fun hv => hv.unique h1, fun hv => hv ▸ h1⟩

/-- C74: for a parser object, an exception. -/
theorem C74_object_left_at_once (T : Throwing) (env : Env) (p : Pat) (dst : Ref) (m m' : Mem)
    (ops : List SOp) (rest : List Ch) (r : Res) (cs l : List LogEntry)
    (h : MakeParserRun env p dst m ops (.ok (r, m', rest))) (hl : m'.log = m.log ++ cs)
    (hn : untilThrow T m.log cs = some l) :
    ∃ m1, m1.log = l ∧ ∀ v, MakeParserRunT T env p dst m ops v ↔ v = .thrown m1 := by
  obtain ⟨v', h1, h2⟩ := h.throws (T := T)
  cases h2 with
  | ok _ _ _ hc =>
    obtain ⟨x, hx, hy⟩ := hc
    rw [hl, List.append_cancel_left_eq] at hx
    subst hx
    rw [hn] at hy; cases hy
  | @thrown m1 _ hc hp =>
    have := hc.until (hl ▸ hp _ _ _ rfl)
    rw [hn] at this; cases this
    exact ⟨m1, rfl, fun v => ⟨fun hv => hv.unique h1, fun hv => hv ▸ h1⟩⟩

/-- C74: exceptions bring no undefined behaviour that would not be there without them. -/
theorem C74_no_new_errors (T : Throwing) (env : Env) (p : Pat) (dst : Ref) (m : Mem) (t : List Ch)
    (e : Err) (h : ParsesT T env p dst m t (.ends (.error e))) : Parses env p dst m t (.error e) := by
  generalize hv : VerdictT.ends (.error e) = v at h
  cases h with
  | construct hc => cases hv; exact .construct hc
  | error hc he => cases hv; exact .error hc he.error
  | thrown => cases hv
  | ok => cases hv

/-- C74: for a parser object. -/
theorem C74_object_no_new_errors (T : Throwing) (env : Env) (p : Pat) (dst : Ref) (m : Mem)
    (ops : List SOp) (e : Err) (h : MakeParserRunT T env p dst m ops (.ends (.error e))) :
    MakeParserRun env p dst m ops (.error e) := by
  cases h with
  | construct hc => exact .construct hc
  | run hc hs => exact .run hc (hs.wrong rfl)

/-- C74, the destination, for patterns that write it only on success (`traceless`: among them every
pattern with an action around it, `p[act]`) and actions that do not write through the bound
destination: after an exception all objects have the values they had before. -/
theorem C74_destination_kept_partial (T : Throwing) (env : Env) (p : Pat) (dst : Ref) (m m1 : Mem)
    (t : List Ch) (he : env.quiet) (hp : p.quiet = true) (ht : p.traceless false = true)
    (h : ParsesT T env p dst m t (.thrown m1)) : m.Extends m1 := by
  intro o v hv
  rw [← look_nil] at hv ⊢
  exact h.af (misses_region o []) (misses_keeps o [] v) (af_elab p (fun _ => rfl) ht)
    (.inr ⟨elab_quiet p hp rfl, he.prog⟩) hv

/-- C74, the destination, for a parser object. -/
theorem C74_object_destination_kept_partial (T : Throwing) (env : Env) (p : Pat) (dst : Ref)
    (m m1 : Mem) (ops : List SOp) (he : env.quiet) (hp : p.quiet = true)
    (ht : p.traceless false = true) (h : MakeParserRunT T env p dst m ops (.thrown m1)) :
    m.Extends m1 := by
  intro o v hv
  rw [← look_nil] at hv ⊢
  exact h.af (misses_region o []) (misses_keeps o [] v) (af_elab p (fun _ => rfl) ht)
    (.inr ⟨elab_quiet p hp rfl, he.prog⟩) hv

/-- C74: the patterns that claim is about. -/
theorem C74_covers (a : Act) (p q : Pat) (tys : List Ty) (hq : q.traceless true = true) :
    (Pat.action a p).traceless false = true ∧ (Pat.construct tys p).traceless false = true ∧
      (Pat.opt q).traceless false = true := ⟨rfl, rfl, hq⟩

/-- An action that hands on what it gets. -/
def exHand : Act := ⟨1, .char, false, false, fun _ v _ => (v, .nil)⟩
/-- It throws when it gets an 'x'. -/
def exOnX : Throwing := fun _ _ v => match v with | .num c => c == 120 | _ => false
/-- `*(char_[hand])` -/
def exHands : Pat := .rep 0 0 (.action exHand (.char .any))

/-- C74 is false of the destination in general: `*(char_[hand])` on "abxc" into a string that holds
"-" leaves "-ab" there when `hand` throws. -/
theorem C74_refuted : ParsesT exOnX noEnv exHands (.at 0 [] .string) ⟨[.coll [.num 45]], []⟩
    [97, 98, 120, 99]
    (.thrown ⟨[.coll [.num 45, .num 97, .num 98], .num 97, .num 98, .num 120],
      [⟨1, .num 97⟩, ⟨1, .num 98⟩, ⟨1, .num 120⟩]⟩) := parsesT_of_thrownN (n := 30) (by rfl)

/-- What it leaves there without exceptions. -/
def exHanded : Mem :=
  ⟨[.coll [.num 45, .num 97, .num 98, .num 120, .num 99], .num 97, .num 98, .num 120, .num 99, .indet],
    [⟨1, .num 97⟩, ⟨1, .num 98⟩, ⟨1, .num 120⟩, ⟨1, .num 99⟩]⟩
theorem exHands_parses : Parses noEnv exHands (.at 0 [] .string) ⟨[.coll [.num 45]], []⟩
    [97, 98, 120, 99] (.ok (.SUCCESS, exHanded, [])) := parses_of_parseN (n := 30) rfl

/-- Hypotheses met, an exception. -/
example : ∃ m1 : Mem, m1.log = [⟨1, .num 97⟩, ⟨1, .num 98⟩, ⟨1, .num 120⟩] ∧
    ∀ v, ParsesT exOnX noEnv exHands (.at 0 [] .string) ⟨[.coll [.num 45]], []⟩ [97, 98, 120, 99] v ↔
      v = .thrown m1 :=
  C74_left_at_once exOnX noEnv exHands _ _ exHanded _ _ _ exHanded.log _ exHands_parses rfl rfl

/-- Hypotheses met, nothing thrown: the third call of all would throw, if it were of action 2. -/
example : ParsesT (fun id l _ => id == 2 && l.length == 2) noEnv exHands (.at 0 [] .string)
    ⟨[.coll [.num 45]], []⟩ [97, 98, 120, 99] (.ends (.ok (.SUCCESS, exHanded, []))) :=
  (C74_nothing_thrown _ noEnv exHands _ _ exHanded _ _ _ exHanded.log exHands_parses rfl rfl _).2 rfl

/-- Hypotheses met, parser objects: the text comes in two pieces. -/
example : ∃ m1 : Mem, m1.log = [⟨1, .num 97⟩, ⟨1, .num 98⟩, ⟨1, .num 120⟩] ∧
    ∀ v, MakeParserRunT exOnX noEnv exHands (.at 0 [] .string) ⟨[.coll [.num 45]], []⟩
      [.add [97] false, .consume, .add [98, 120, 99] true, .consume] v ↔ v = .thrown m1 := by
  refine C74_object_left_at_once exOnX noEnv exHands _ _ exHanded _ [] .SUCCESS exHanded.log _ ?_ rfl rfl
  rw [C25_delivery_is_not_observable _ _ _ _ [.add [97] false, .consume, .add [98, 120, 99] true, .consume]
    ⟨trivial, rfl⟩]
  exact exHands_parses

/-- Hypotheses met, the destination: `(+char_)[join]` on "abx", where `join` throws. -/
def exJoin : Act := ⟨1, .string, false, false, fun _ v _ => (v, .nil)⟩
example : ∃ m1, ParsesT (fun _ _ _ => true) noEnv (.action exJoin (.rep 1 0 (.char .any)))
    (.at 0 [] .string) ⟨[.coll [.num 45]], []⟩ [97, 98, 120] (.thrown m1) ∧
    (⟨[.coll [.num 45]], []⟩ : Mem).Extends m1 := by
  have h : ∃ m1, ParsesT (fun _ _ _ => true) noEnv (.action exJoin (.rep 1 0 (.char .any)))
    (.at 0 [] .string) ⟨[.coll [.num 45]], []⟩ [97, 98, 120] (.thrown m1) :=
    ⟨_, parsesT_of_thrownN (n := 30) rfl⟩
  obtain ⟨m1, h⟩ := h
  exact ⟨m1, h, C74_destination_kept_partial _ _ _ _ _ _ _ (fun _ _ h => by cases h) rfl rfl h⟩

end Abu
