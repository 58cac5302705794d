import Verif.Model.Pattern
import Verif.Model.Digits
/-
Specification of recognition: the textbook reading of patterns as a parsing expression grammar
(recursive descent, ordered choice, greedy repetition, lookahead). Positions are offsets in a
complete text; there is no data source, no rollback point and no parser object here.
-/
namespace Abu

/-- The value stored under a key in a map represented as a tree of characters. -/
def Node.get : Node → List Ch → Option Val
  | n, [] => n.val
  | n, c :: key =>
    match n.child.find c with
    | none => none
    | some n' => n'.get key

/-- `key` is a non-empty key of the map, and the text continues with it at `i`. -/
def KeyAt (root : Node) (t : List Ch) (i : Nat) (key : List Ch) : Prop :=
  key ≠ [] ∧ (root.get key).isSome = true ∧ key <+: t.drop i

/-- Number of base `b` digits at the start of a text, at most `mx` (`0`: any number). -/
def digitRun (b mx : Nat) (l : List Ch) : Nat :=
  let k := (l.takeWhile (digitValid b)).length
  if mx = 0 then k else min k mx

/-- Length of an optional sign at the start of a text. -/
def signLen : List Ch → Nat
  | c :: _ => if c = 43 ∨ c = 45 then 1 else 0
  | [] => 0

/-- `Peg env t p i o`: from position `i` of the text `t` the pattern `p` matches up to position
`j` (`o = some j`) or does not match (`o = none`). A pattern that loops for ever has no outcome.
Patterns used through `Recur` are given by `env`. Skippers are treated apart. -/
inductive Peg (env : Env) (t : List Ch) : Pat → Nat → Option Nat → Prop
  | char {s i c} : t[i]? = some c → s.isValid c = true → Peg env t (.char s) i (some (i + 1))
  | charNo {s i} : (∀ c, t[i]? = some c → s.isValid c = false) → Peg env t (.char s) i none
  | charSymbol {m i c v} : t[i]? = some c → m.lookup c = some v →
      Peg env t (.charSymbol m) i (some (i + 1))
  | charSymbolNo {m i} : (∀ c, t[i]? = some c → m.lookup c = none) →
      Peg env t (.charSymbol m) i none
  | strLit {s i} : s <+: t.drop i → Peg env t (.strLit s) i (some (i + s.length))
  | strLitNo {s i} : ¬ s <+: t.drop i → Peg env t (.strLit s) i none
  | symbol {root i key} : KeyAt root t i key →
      (∀ key', KeyAt root t i key' → key'.length ≤ key.length) →
      Peg env t (.symbol root) i (some (i + key.length))
  | symbolNo {root i} : (∀ key, ¬ KeyAt root t i key) → Peg env t (.symbol root) i none
  | uint {b mn mx i} : mn ≤ digitRun b mx (t.drop i) →
      Peg env t (.uint b mn mx) i (some (i + digitRun b mx (t.drop i)))
  | uintNo {b mn mx i} : digitRun b mx (t.drop i) < mn → Peg env t (.uint b mn mx) i none
  | int {b mn mx i j} : j = i + signLen (t.drop i) → mn ≤ digitRun b mx (t.drop j) →
      Peg env t (.int b mn mx) i (some (j + digitRun b mx (t.drop j)))
  | intNo {b mn mx i j} : j = i + signLen (t.drop i) → digitRun b mx (t.drop j) < mn →
      Peg env t (.int b mn mx) i none
  | eoi {i} : t.length ≤ i → Peg env t .eoi i (some i)
  | eoiNo {i} : i < t.length → Peg env t .eoi i none
  | pass {i} : Peg env t .pass i (some i)
  | fail {i} : Peg env t .fail i none
  /-- a sequence: the first part, then the rest from where it stopped -/
  | seqNil {i} : Peg env t (.seq []) i (some i)
  | seqNo {p ps i} : Peg env t p i none → Peg env t (.seq (p :: ps)) i none
  | seq {p ps i j o} : Peg env t p i (some j) → Peg env t (.seq ps) j o →
      Peg env t (.seq (p :: ps)) i o
  /-- alternatives: the first one that matches, all from the same position -/
  | altNil {i} : Peg env t (.alt []) i none
  | alt {p ps i j} : Peg env t p i (some j) → Peg env t (.alt (p :: ps)) i (some j)
  | altNo {p ps i o} : Peg env t p i none → Peg env t (.alt ps) i o →
      Peg env t (.alt (p :: ps)) i o
  /-- repetition: another match and the rest of the repetition, if there is another match -/
  | repStop {mx p i} : Peg env t p i none → Peg env t (.rep 0 mx p) i (some i)
  | repFew {mn mx p i} : 0 < mn → Peg env t p i none → Peg env t (.rep mn mx p) i none
  | repLast {mn p i j} : Peg env t p i (some j) → Peg env t (.rep mn 1 p) i (some j)
  | repMore {mn mx p i j o} : mx ≠ 1 → Peg env t p i (some j) →
      Peg env t (.rep (mn - 1) (mx - 1) p) j o → Peg env t (.rep mn mx p) i o
  | opt {p i j} : Peg env t p i (some j) → Peg env t (.opt p) i (some j)
  | optNo {p i} : Peg env t p i none → Peg env t (.opt p) i (some i)
  | not {p i} : Peg env t p i none → Peg env t (.not p) i (some i)
  | notNo {p i j} : Peg env t p i (some j) → Peg env t (.not p) i none
  | discard {p i o} : Peg env t p i o → Peg env t (.discard p) i o
  | lexeme {p i o} : Peg env t p i o → Peg env t (.lexeme p) i o
  | bindDst {p i o} : Peg env t p i o → Peg env t (.bindDst p) i o
  | construct {tys p i o} : Peg env t p i o → Peg env t (.construct tys p) i o
  | action {a p i o} : Peg env t p i o → Peg env t (.action a p) i o
  | except {op neg i o} : Peg env t neg i none → Peg env t op i o → Peg env t (.except op neg) i o
  | exceptNo {op neg i j} : Peg env t neg i (some j) → Peg env t (.except op neg) i none
  /-- a list: nothing, or an item and then separators followed by items -/
  | listNil {op sep i} : Peg env t op i none → Peg env t (.list op sep) i (some i)
  | list {op sep i j o} : Peg env t op i (some j) →
      Peg env t (.rep 0 0 (.seq [sep, op])) j o → Peg env t (.list op sep) i o
  | recur {id n q i o} : env id = some q → Peg env t q i o → Peg env t (.recur id n) i o

/-- A pattern has at most one outcome. -/
theorem Peg.unique {env t p i o o'} (h : Peg env t p i o) (h' : Peg env t p i o') : o = o' := by
  induction h generalizing o' with
  | char h1 h2 =>
    cases h' with
    | char => rfl
    | charNo h => rw [h _ h1] at h2; cases h2
  | charNo h =>
    cases h' with
    | char h1 h2 => rw [h _ h1] at h2; cases h2
    | charNo => rfl
  | charSymbol h1 h2 =>
    cases h' with
    | charSymbol => rfl
    | charSymbolNo h => rw [h _ h1] at h2; cases h2
  | charSymbolNo h =>
    cases h' with
    | charSymbol h1 h2 => rw [h _ h1] at h2; cases h2
    | charSymbolNo => rfl
  | strLit h => cases h' with | strLit => rfl | strLitNo h2 => exact absurd h h2
  | strLitNo h => cases h' with | strLit h2 => exact absurd h2 h | strLitNo => rfl
  | symbol h1 h2 =>
    cases h' with
    | symbol h3 h4 => have := h2 _ h3; have := h4 _ h1; simp only [Option.some.injEq]; omega
    | symbolNo h3 => exact absurd h1 (h3 _)
  | symbolNo h => cases h' with | symbol h3 h4 => exact absurd h3 (h _) | symbolNo => rfl
  | uint h => cases h' with | uint => rfl | uintNo => omega
  | uintNo h => cases h' with | uint => omega | uintNo => rfl
  | int h1 h => subst h1; cases h' with | int h2 => subst h2; rfl | intNo h2 => subst h2; omega
  | intNo h1 h => subst h1; cases h' with | int h2 => subst h2; omega | intNo => rfl
  | eoi h => cases h' with | eoi => rfl | eoiNo => omega
  | eoiNo h => cases h' with | eoi => omega | eoiNo => rfl
  | pass => cases h'; rfl
  | fail => cases h'; rfl
  | seqNil => cases h'; rfl
  | seqNo _ ih => cases h' with | seqNo => rfl | seq h1 => cases ih h1
  | seq _ _ ih1 ih2 =>
    cases h' with
    | seqNo h1 => cases ih1 h1
    | seq h1 h2 => cases ih1 h1; exact ih2 h2
  | altNil => cases h'; rfl
  | alt _ ih => cases h' with | alt h1 => exact ih h1 | altNo h1 => cases ih h1
  | altNo _ _ ih1 ih2 => cases h' with | alt h1 => cases ih1 h1 | altNo h1 h2 => exact ih2 h2
  | repStop _ ih =>
    cases h' with
    | repStop => rfl
    | repFew => omega
    | repLast h1 => cases ih h1
    | repMore _ h1 => cases ih h1
  | repFew _ _ ih =>
    cases h' with
    | repStop => omega
    | repFew => rfl
    | repLast h1 => cases ih h1
    | repMore _ h1 => cases ih h1
  | repLast _ ih =>
    cases h' with
    | repStop h1 => cases ih h1
    | repFew _ h1 => cases ih h1
    | repLast h1 => exact ih h1
    | repMore h => exact absurd rfl h
  | repMore hm _ _ ih1 ih2 =>
    cases h' with
    | repStop h1 => cases ih1 h1
    | repFew _ h1 => cases ih1 h1
    | repLast h1 => exact absurd rfl hm
    | repMore _ h1 h2 => cases ih1 h1; exact ih2 h2
  | opt _ ih => cases h' with | opt h1 => exact ih h1 | optNo h1 => cases ih h1
  | optNo _ ih => cases h' with | opt h1 => cases ih h1 | optNo => rfl
  | not _ ih => cases h' with | not => rfl | notNo h1 => cases ih h1
  | notNo _ ih => cases h' with | not h1 => cases ih h1 | notNo => rfl
  | discard _ ih => cases h' with | discard h1 => exact ih h1
  | lexeme _ ih => cases h' with | lexeme h1 => exact ih h1
  | bindDst _ ih => cases h' with | bindDst h1 => exact ih h1
  | construct _ ih => cases h' with | construct h1 => exact ih h1
  | action _ ih => cases h' with | action h1 => exact ih h1
  | except _ _ ih1 ih2 =>
    cases h' with
    | except _ h2 => exact ih2 h2
    | exceptNo h1 => cases ih1 h1
  | exceptNo _ ih1 => cases h' with | except h1 => cases ih1 h1 | exceptNo => rfl
  | listNil _ ih => cases h' with | listNil => rfl | list h1 => cases ih h1
  | list _ _ ih1 ih2 =>
    cases h' with
    | listNil h1 => cases ih1 h1
    | list h1 h2 => cases ih1 h1; exact ih2 h2
  | recur hq _ ih => cases h' with | recur hq' h1 => rw [hq] at hq'; cases hq'; exact ih h1

end Abu
