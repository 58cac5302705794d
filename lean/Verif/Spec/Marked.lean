import Verif.Spec.Peg
/-
Specification of recognition with its departures from the textbook: recursive descent with one
stack of saved positions shared by all parts of a pattern. A part that may have to be undone saves
the position when it is begun, and goes back to the position saved last, whichever part saved it.
There is no parser object, requirement, adapter, destination or data source here.
-/
namespace Abu

mutual
/-- Sequences and alternatives have at least one part (no operator builds another). -/
def Pat.filled : Pat → Bool
  | .seq ps => !ps.isEmpty && Pat.filledAll ps
  | .alt ps => !ps.isEmpty && Pat.filledAll ps
  | .rep _ _ p => p.filled
  | .opt p => p.filled
  | .not p => p.filled
  | .discard p => p.filled
  | .lexeme p => p.filled
  | .bindDst p => p.filled
  | .construct _ p => p.filled
  | .action _ p => p.filled
  | .except op neg => op.filled && neg.filled
  | .list op sep => op.filled && sep.filled
  | .withSkipper p s => p.filled && s.filled
  | _ => true
/-- For all of a list. -/
def Pat.filledAll : List Pat → Bool
  | [] => true
  | p :: ps => p.filled && Pat.filledAll ps
end

/-- For the patterns used through `Recur`. -/
def Env.filled (env : Env) : Prop := ∀ id q, env id = some q → q.filled = true

/-! ### Leaves -/

/-- Length of the common start of two texts. -/
def common : List Ch → List Ch → Nat
  | a :: l, b :: l' => if a = b then common l l' + 1 else 0
  | _, _ => 0

/-- How much of the text leads somewhere in the tree of characters of a symbol table. -/
def Node.walk : Node → List Ch → Nat
  | _, [] => 0
  | n, c :: l =>
    match n.child.find c with
    | none => 0
    | some n' => n'.walk l + 1

/-- Enough digits for a number: as many as required, or as many as allowed. -/
def enoughDigits (mn mx k : Nat) : Prop := mn ≤ k ∨ (mx ≠ 0 ∧ k = mx)

/-- `LeafDoes t p i b j`: from `i` the leaf pattern `p` matches (`b = true`) or not, and has read
the text up to `j`. -/
inductive LeafDoes (t : List Ch) : Pat → Nat → Bool → Nat → Prop
  | char {s i c} : t[i]? = some c → s.isValid c = true → LeafDoes t (.char s) i true (i + 1)
  | charNo {s i} : (∀ c, t[i]? = some c → s.isValid c = false) → LeafDoes t (.char s) i false i
  /-- a match of `CharSymbol` reads nothing -/
  | charSymbol {m i c v} : t[i]? = some c → m.lookup c = some v →
      LeafDoes t (.charSymbol m) i true i
  | charSymbolNo {m i} : (∀ c, t[i]? = some c → m.lookup c = none) →
      LeafDoes t (.charSymbol m) i false i
  | strLit {s i} : s <+: t.drop i → LeafDoes t (.strLit s) i true (i + s.length)
  | strLitNo {s i} : ¬ s <+: t.drop i → LeafDoes t (.strLit s) i false (i + common s (t.drop i))
  | symbol {root i key} : KeyAt root t i key →
      (∀ key', KeyAt root t i key' → key'.length ≤ key.length) →
      LeafDoes t (.symbol root) i true (i + key.length)
  | symbolNo {root i} : (∀ key, ¬ KeyAt root t i key) →
      LeafDoes t (.symbol root) i false (i + root.walk (t.drop i))
  | uint {b mn mx i} : enoughDigits mn mx (digitRun b mx (t.drop i)) →
      LeafDoes t (.uint b mn mx) i true (i + digitRun b mx (t.drop i))
  | uintNo {b mn mx i} : ¬ enoughDigits mn mx (digitRun b mx (t.drop i)) →
      LeafDoes t (.uint b mn mx) i false (i + digitRun b mx (t.drop i))
  | int {b mn mx i j} : j = i + signLen (t.drop i) → enoughDigits mn mx (digitRun b mx (t.drop j)) →
      LeafDoes t (.int b mn mx) i true (j + digitRun b mx (t.drop j))
  | intNo {b mn mx i j} : j = i + signLen (t.drop i) →
      ¬ enoughDigits mn mx (digitRun b mx (t.drop j)) →
      LeafDoes t (.int b mn mx) i false (j + digitRun b mx (t.drop j))
  | eoi {i} : t.length ≤ i → LeafDoes t .eoi i true i
  | eoiNo {i} : i < t.length → LeafDoes t .eoi i false i
  | pass {i} : LeafDoes t .pass i true i
  | fail {i} : LeafDoes t .fail i false i

/-! ### Saved positions -/

/-- Parts that save the position when they are begun, if they have to restore it when they fail. -/
def Pat.guarded : Pat → Bool
  | .strLit _ => true
  | .symbol _ => true
  | .int _ _ mx => mx != 1
  | .uint _ _ mx => mx != 1
  | .seq _ => true
  | .rep .. => true
  | .except .. => true
  | .recur .. => true
  | .withSkipper p _ => p.guarded
  | _ => false

/-- Does an item of a repetition have to restore the position when it fails? -/
def itemClean (mn mx : Nat) : Bool := mn != mx || mx == 0

/-- Number of positions saved when the part is begun. `m`: the number its skipper saves when it is
begun; `f`: the part is skipped before; `c`: it has to restore the position when it fails. -/
def Pat.saves (m : Nat) (f c : Bool) : Pat → Nat
  | .seq [] => (if f then m else 0) + c.toNat
  | .seq (p :: _) => (if f then m else 0) + c.toNat + p.saves m true false
  | .alt [] => if f then m else 0
  | .alt (p :: _) => (if f then m else 0) + p.saves m true true
  | .rep mn mx p => (if f then m else 0) + c.toNat + p.saves m true (itemClean mn mx)
  | .opt p => (if f then m else 0) + 1 + p.saves m true false
  | .not p => (if f then m else 0) + 1 + p.saves m true false
  | .list op _ => (if f then m else 0) + 1 + op.saves m true false
  | .discard p => (if f then m else 0) + p.saves m f c
  | .lexeme p => (if f then m else 0) + p.saves 0 f c
  | .bindDst p => (if f then m else 0) + p.saves m true c
  | .construct _ p => (if f then m else 0) + p.saves m true c
  | .action _ p => (if f then m else 0) + p.saves m true c
  | .except _ neg => (if f then m else 0) + c.toNat + neg.saves m true true
  | .withSkipper p s => (if f then m else 0) + (c && p.guarded).toNat +
      p.saves (s.saves 0 true true) f (c && !p.guarded)
  | p => (if f then m else 0) + (c && p.guarded).toNat

/-- Number of positions a skipper saves when it is begun. -/
def skipSaves : Option Pat → Nat
  | none => 0
  | some s => s.saves 0 true true

/-- The saved positions after a part has been begun at `i`. -/
def begun (k : Option Pat) (f c : Bool) (p : Pat) (i : Nat) (S : List Nat) : List Nat :=
  List.replicate (p.saves (skipSaves k) f c) i ++ S

/-- The same for the first of the parts that remain, if any does. -/
def begunHead (k : Option Pat) (c : Bool) : List Pat → Nat → List Nat → List Nat
  | [], _, S => S
  | p :: _, i, S => begun k true c p i S

/-- What is left to do. `k`: the skipper in force. -/
inductive Task
  /-- a part that has been begun: skip first, unless `f = false` -/
  | one (f : Bool) (k : Option Pat) (c : Bool) (p : Pat)
  /-- the same, after skipping -/
  | raw (f : Bool) (k : Option Pat) (c : Bool) (p : Pat)
  /-- the parts of a sequence, the first of which has been begun -/
  | seq (k : Option Pat) (ps : List Pat)
  /-- alternatives, the first of which has been begun -/
  | alt (k : Option Pat) (ps : List Pat)
  /-- a repetition after `n` items, another of which has been begun -/
  | rep (k : Option Pat) (mn mx n : Nat) (p : Pat)
  /-- a list whose next item has been begun -/
  | item (k : Option Pat) (op sep : Pat)
  /-- a list whose next separator has been begun -/
  | sep (k : Option Pat) (op sep : Pat)

/-- `Marked env t T i S b j S'`: from position `i` of the text `t`, with saved positions `S`, task
`T` succeeds (`b = true`) or fails, at position `j` with saved positions `S'`. -/
inductive Marked (env : Env) (t : List Ch) : Task → Nat → List Nat → Bool → Nat → List Nat → Prop
  | plain {f k c p i S b j S'} : f = false ∨ k = none → Marked env t (.raw f k c p) i S b j S' →
      Marked env t (.one f k c p) i S b j S'
  /-- skip as long as the skipper matches -/
  | skipped {s c p i S j S1 b j' S'} : Marked env t (.one true none true s) i S true j S1 →
      Marked env t (.one true (some s) c p) j (begun none true true s j S1) b j' S' →
      Marked env t (.one true (some s) c p) i S b j' S'
  | skipEnd {s c p i S j S1 b j' S'} : Marked env t (.one true none true s) i S false j S1 →
      Marked env t (.raw true (some s) c p) j S1 b j' S' →
      Marked env t (.one true (some s) c p) i S b j' S'
  /-- the position saved last is dropped after success -/
  | kept {f k p i S j x S'} : p.guarded = true →
      Marked env t (.raw f k false p) i S true j (x :: S') →
      Marked env t (.raw f k true p) i S true j S'
  /-- and restored after failure -/
  | undone {f k p i S j x S'} : p.guarded = true →
      Marked env t (.raw f k false p) i S false j (x :: S') →
      Marked env t (.raw f k true p) i S false x S'
  | leaf {f k c p i S b j} : (c = true → p.guarded = false) → LeafDoes t p i b j →
      Marked env t (.raw f k c p) i S b j S
  | seq {f k ps i S b j S'} : Marked env t (.seq k ps) i S b j S' →
      Marked env t (.raw f k false (.seq ps)) i S b j S'
  | seqNil {k i S} : Marked env t (.seq k []) i S true i S
  | seqNo {k p ps i S j S'} : Marked env t (.one true k false p) i S false j S' →
      Marked env t (.seq k (p :: ps)) i S false j S'
  | seqCons {k p ps i S j S1 b j' S'} : Marked env t (.one true k false p) i S true j S1 →
      Marked env t (.seq k ps) j (begunHead k false ps j S1) b j' S' →
      Marked env t (.seq k (p :: ps)) i S b j' S'
  | alt {f k c ps i S b j S'} : Marked env t (.alt k ps) i S b j S' →
      Marked env t (.raw f k c (.alt ps)) i S b j S'
  | altNil {k i S} : Marked env t (.alt k []) i S false i S
  | altOk {k p ps i S j S'} : Marked env t (.one true k true p) i S true j S' →
      Marked env t (.alt k (p :: ps)) i S true j S'
  | altCons {k p ps i S j S1 b j' S'} : Marked env t (.one true k true p) i S false j S1 →
      Marked env t (.alt k ps) j (begunHead k true ps j S1) b j' S' →
      Marked env t (.alt k (p :: ps)) i S b j' S'
  | rep {f k mn mx p i S b j S'} : Marked env t (.rep k mn mx 0 p) i S b j S' →
      Marked env t (.raw f k false (.rep mn mx p)) i S b j S'
  | repStop {k mn mx n p i S j S'} : Marked env t (.one true k (itemClean mn mx) p) i S false j S' →
      Marked env t (.rep k mn mx n p) i S (decide (mn ≤ n)) j S'
  | repLast {k mn mx n p i S j S'} : Marked env t (.one true k (itemClean mn mx) p) i S true j S' →
      n + 1 = mx → Marked env t (.rep k mn mx n p) i S true j S'
  | repMore {k mn mx n p i S j S1 b j' S'} :
      Marked env t (.one true k (itemClean mn mx) p) i S true j S1 → n + 1 ≠ mx →
      Marked env t (.rep k mn mx (n + 1) p) j (begun k true (itemClean mn mx) p j S1) b j' S' →
      Marked env t (.rep k mn mx n p) i S b j' S'
  /-- the saved position of an optional part that matches is not dropped -/
  | opt {f k c p i S j S'} : Marked env t (.one true k false p) i S true j S' →
      Marked env t (.raw f k c (.opt p)) i S true j S'
  | optNo {f k c p i S j x S'} : Marked env t (.one true k false p) i S false j (x :: S') →
      Marked env t (.raw f k c (.opt p)) i S true x S'
  | not {f k c p i S b j x S'} : Marked env t (.one true k false p) i S b j (x :: S') →
      Marked env t (.raw f k c (.not p)) i S (!b) x S'
  | discard {f k c p i S b j S'} : Marked env t (.one f k c p) i S b j S' →
      Marked env t (.raw f k c (.discard p)) i S b j S'
  | lexeme {f k c p i S b j S'} : Marked env t (.one f none c p) i S b j S' →
      Marked env t (.raw f k c (.lexeme p)) i S b j S'
  | bindDst {f k c p i S b j S'} : Marked env t (.one true k c p) i S b j S' →
      Marked env t (.raw f k c (.bindDst p)) i S b j S'
  | construct {f k c tys p i S b j S'} : Marked env t (.one true k c p) i S b j S' →
      Marked env t (.raw f k c (.construct tys p)) i S b j S'
  | action {f k c a p i S b j S'} : Marked env t (.one true k c p) i S b j S' →
      Marked env t (.raw f k c (.action a p)) i S b j S'
  /-- what must not match is tried first; nothing is undone if it does -/
  | exceptNo {f k op neg i S j S'} : Marked env t (.one true k true neg) i S true j S' →
      Marked env t (.raw f k false (.except op neg)) i S false j S'
  | except {f k op neg i S j S1 b j' S'} : Marked env t (.one true k true neg) i S false j S1 →
      Marked env t (.one true k false op) j (begun k true false op j S1) b j' S' →
      Marked env t (.raw f k false (.except op neg)) i S b j' S'
  | list {f k c op sep i S b j S'} : Marked env t (.item k op sep) i S b j S' →
      Marked env t (.raw f k c (.list op sep)) i S b j S'
  | itemNo {k op sep i S j x S'} : Marked env t (.one true k false op) i S false j (x :: S') →
      Marked env t (.item k op sep) i S true x S'
  /-- after an item the position saved last is replaced -/
  | itemOk {k op sep i S j x S1 b j' S'} :
      Marked env t (.one true k false op) i S true j (x :: S1) →
      Marked env t (.sep k op sep) j (begun k true false sep j (j :: S1)) b j' S' →
      Marked env t (.item k op sep) i S b j' S'
  | sepNo {k op sep i S j x S'} : Marked env t (.one true k false sep) i S false j (x :: S') →
      Marked env t (.sep k op sep) i S true x S'
  | sepOk {k op sep i S j S1 b j' S'} : Marked env t (.one true k false sep) i S true j S1 →
      Marked env t (.item k op sep) j (begun k true false op j S1) b j' S' →
      Marked env t (.sep k op sep) i S b j' S'
  | withSkipper {f k c p s i S b j S'} : (c = true → p.guarded = false) →
      Marked env t (.one f (some s) c p) i S b j S' →
      Marked env t (.raw f k c (.withSkipper p s)) i S b j S'
  /-- a pattern used through `Recur` is begun only now, and is not skipped before -/
  | recur {f k id n q i S b j S'} : env id = some q →
      Marked env t (.one false k false q) i (begun k false false q i S) b j S' →
      Marked env t (.raw f k false (.recur id n)) i S b j S'

/-- `MarkedFor env p t b rest`: the pattern matches the text or not, and leaves `rest` unread. -/
def MarkedFor (env : Env) (p : Pat) (t : List Ch) (b : Bool) (rest : List Ch) : Prop :=
  ∃ j S', Marked env t (.one true none false p) 0 (begun none true false p 0 []) b j S' ∧
    rest = t.drop j

end Abu
