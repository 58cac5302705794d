import Verif.Spec.Peg
import Verif.Model.Machine
/-
What can be said about a pattern while the text is still incomplete: the grammar semantics with a
third outcome.
-/
namespace Abu

/-- Digits only, and not as many as are allowed. -/
def DigitsOpen (b mx : Nat) (u : List Ch) : Prop :=
  (∀ c ∈ u, digitValid b c = true) ∧ (mx = 0 ∨ u.length < mx)

/-- A sign and digits, or the start of that. -/
def SignedOpen (b mx : Nat) (u : List Ch) : Prop :=
  ∃ sg ds, u = sg ++ ds ∧ (sg = [] ∨ sg = [43] ∨ sg = [45]) ∧ DigitsOpen b mx ds

/-- The node for the keys that begin with `u`. -/
def Node.descend : Node → List Ch → Option Node
  | n, [] => some n
  | n, c :: u =>
    match n.child.find c with
    | none => none
    | some n' => n'.descend u

/-- `u` is empty, or leads to a node of the table that is no key or goes on. For tables made of
entries: some key goes on after `u` (`nodeOpen_iff`). -/
def NodeOpen (root : Node) (u : List Ch) : Prop :=
  u = [] ∨ ∃ n, root.descend u = some n ∧ (n.val = none ∨ n.child ≠ .nil)

/-- Patterns that have no parts. -/
def Pat.isLeaf : Pat → Bool
  | .char _ | .charSymbol _ | .strLit _ | .symbol _ | .int .. | .uint .. | .eoi | .pass | .fail => true
  | _ => false

/-- All the text there is from here on, `u`, could be the start of what the leaf pattern is looking for,
or of something longer than it has found. -/
def Pat.Open : Pat → List Ch → Prop
  | .char _, u => u = []
  | .charSymbol _, u => u = []
  | .strLit s, u => u <+: s ∧ u ≠ s
  | .symbol root, u => NodeOpen root u
  | .int b _ mx, u => SignedOpen b mx u
  | .uint b _ mx, u => DigitsOpen b mx u
  | .eoi, u => u = []
  | _, _ => False

/-- What is known: that it depends on how the text goes on, that the pattern does not match, that it
matches up to a position. -/
inductive Ans
  | more
  | no
  | yes (j : Nat)

/-- `Scan env t p i a`: `a` is what can be said about the pattern `p` at the position `i` by a reader
that goes through the pattern from left to right, when `t` is only the beginning of the text. -/
inductive Scan (env : Env) (t : List Ch) : Pat → Nat → Ans → Prop
  | leafMore {p i} : p.Open (t.drop i) → Scan env t p i .more
  | leafNo {p i} : p.isLeaf = true → ¬ p.Open (t.drop i) → Peg env t p i none → Scan env t p i .no
  | leaf {p i j} : p.isLeaf = true → ¬ p.Open (t.drop i) → Peg env t p i (some j) →
      Scan env t p i (.yes j)
  | seqNil {i} : Scan env t (.seq []) i (.yes i)
  | seqMore {p ps i} : Scan env t p i .more → Scan env t (.seq (p :: ps)) i .more
  | seqNo {p ps i} : Scan env t p i .no → Scan env t (.seq (p :: ps)) i .no
  | seq {p ps i j a} : Scan env t p i (.yes j) → Scan env t (.seq ps) j a → Scan env t (.seq (p :: ps)) i a
  | altNil {i} : Scan env t (.alt []) i .no
  | altMore {p ps i} : Scan env t p i .more → Scan env t (.alt (p :: ps)) i .more
  | alt {p ps i j} : Scan env t p i (.yes j) → Scan env t (.alt (p :: ps)) i (.yes j)
  | altNo {p ps i a} : Scan env t p i .no → Scan env t (.alt ps) i a → Scan env t (.alt (p :: ps)) i a
  | repWait {mn mx p i} : Scan env t p i .more → Scan env t (.rep mn mx p) i .more
  | repStop {mx p i} : Scan env t p i .no → Scan env t (.rep 0 mx p) i (.yes i)
  | repFew {mn mx p i} : 0 < mn → Scan env t p i .no → Scan env t (.rep mn mx p) i .no
  | repLast {mn p i j} : Scan env t p i (.yes j) → Scan env t (.rep mn 1 p) i (.yes j)
  | repMore {mn mx p i j a} : mx ≠ 1 → Scan env t p i (.yes j) →
      Scan env t (.rep (mn - 1) (mx - 1) p) j a → Scan env t (.rep mn mx p) i a
  | optMore {p i} : Scan env t p i .more → Scan env t (.opt p) i .more
  | opt {p i j} : Scan env t p i (.yes j) → Scan env t (.opt p) i (.yes j)
  | optNo {p i} : Scan env t p i .no → Scan env t (.opt p) i (.yes i)
  | notMore {p i} : Scan env t p i .more → Scan env t (.not p) i .more
  | not {p i} : Scan env t p i .no → Scan env t (.not p) i (.yes i)
  | notNo {p i j} : Scan env t p i (.yes j) → Scan env t (.not p) i .no
  | discard {p i a} : Scan env t p i a → Scan env t (.discard p) i a
  | lexeme {p i a} : Scan env t p i a → Scan env t (.lexeme p) i a
  | bindDst {p i a} : Scan env t p i a → Scan env t (.bindDst p) i a
  | construct {tys p i a} : Scan env t p i a → Scan env t (.construct tys p) i a
  | action {f p i a} : Scan env t p i a → Scan env t (.action f p) i a
  | exceptMore {op neg i} : Scan env t neg i .more → Scan env t (.except op neg) i .more
  | except {op neg i a} : Scan env t neg i .no → Scan env t op i a → Scan env t (.except op neg) i a
  | exceptNo {op neg i j} : Scan env t neg i (.yes j) → Scan env t (.except op neg) i .no
  | listMore {op sep i} : Scan env t op i .more → Scan env t (.list op sep) i .more
  | listNil {op sep i} : Scan env t op i .no → Scan env t (.list op sep) i (.yes i)
  | list {op sep i j a} : Scan env t op i (.yes j) → Scan env t (.rep 0 0 (.seq [sep, op])) j a →
      Scan env t (.list op sep) i a
  | recur {id n q i a} : env id = some q → Scan env t q i a → Scan env t (.recur id n) i a

/-- What a parser object says. -/
def Ans.res : Ans → Res
  | .more => .PARTIAL
  | .no => .FAILURE
  | .yes _ => .SUCCESS

/-- What the pattern does depends on how the text goes on after `u`: there are two ways to go on, with
which it matches up to different positions, or once matches and once does not. -/
def Undecided (env : Env) (p : Pat) (u : List Ch) : Prop :=
  ∃ t1 t2 o1 o2, Peg env (u ++ t1) p 0 o1 ∧ Peg env (u ++ t2) p 0 o2 ∧ o1 ≠ o2

/-- Leaf patterns with something to match: sets that are not empty, tables of entries that are not
empty, numbers whose least number of digits is allowed. -/
inductive Pat.Useful : Pat → Prop
  | char {s} (c : Ch) : s.isValid c = true → Useful (.char s)
  | strLit {s} : Useful (.strLit s)
  | symbol {entries : List (List Ch × Val)} {root} : (entries.map Prod.fst).Nodup →
      buildTrie entries = some root → (∃ e ∈ entries, e.1 ≠ []) → Useful (.symbol root)
  | uint {b mn mx} : 1 ≤ b → mx = 0 ∨ mn ≤ mx → Useful (.uint b mn mx)
  | int {b mn mx} : 1 ≤ b → mx = 0 ∨ mn ≤ mx → Useful (.int b mn mx)
  | eoi : Useful .eoi
  | pass : Useful .pass
  | fail : Useful .fail

end Abu
