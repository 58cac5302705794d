import Verif.Spec.Peg
/-
The grammar semantics with skipping: `N i` is the position reached from `i` by skipping.
`N = id`: no skipping. Skipping happens when a sub-pattern is entered; `PegN` is about a pattern
whose own skipping is done.
-/
namespace Abu

/-- Like `Peg`, with skipping before every sub-pattern; none inside `lexeme`. -/
inductive PegN (env : Env) (t : List Ch) : (Nat → Nat) → Pat → Nat → Option Nat → Prop
  | char {N s i c} : t[i]? = some c → s.isValid c = true →
      PegN env t N (.char s) i (some (i + 1))
  | charNo {N s i} : (∀ c, t[i]? = some c → s.isValid c = false) → PegN env t N (.char s) i none
  | charSymbol {N m i c v} : t[i]? = some c → m.lookup c = some v →
      PegN env t N (.charSymbol m) i (some (i + 1))
  | charSymbolNo {N m i} : (∀ c, t[i]? = some c → m.lookup c = none) →
      PegN env t N (.charSymbol m) i none
  | strLit {N s i} : s <+: t.drop i → PegN env t N (.strLit s) i (some (i + s.length))
  | strLitNo {N s i} : ¬ s <+: t.drop i → PegN env t N (.strLit s) i none
  | symbol {N root i key} : KeyAt root t i key →
      (∀ key', KeyAt root t i key' → key'.length ≤ key.length) →
      PegN env t N (.symbol root) i (some (i + key.length))
  | symbolNo {N root i} : (∀ key, ¬ KeyAt root t i key) → PegN env t N (.symbol root) i none
  | uint {N b mn mx i} : mn ≤ digitRun b mx (t.drop i) →
      PegN env t N (.uint b mn mx) i (some (i + digitRun b mx (t.drop i)))
  | uintNo {N b mn mx i} : digitRun b mx (t.drop i) < mn → PegN env t N (.uint b mn mx) i none
  | int {N b mn mx i j} : j = i + signLen (t.drop i) → mn ≤ digitRun b mx (t.drop j) →
      PegN env t N (.int b mn mx) i (some (j + digitRun b mx (t.drop j)))
  | intNo {N b mn mx i j} : j = i + signLen (t.drop i) → digitRun b mx (t.drop j) < mn →
      PegN env t N (.int b mn mx) i none
  | eoi {N i} : t.length ≤ i → PegN env t N .eoi i (some i)
  | eoiNo {N i} : i < t.length → PegN env t N .eoi i none
  | pass {N i} : PegN env t N .pass i (some i)
  | fail {N i} : PegN env t N .fail i none
  | seqNil {N i} : PegN env t N (.seq []) i (some i)
  | seqNo {N p ps i} : PegN env t N p (N i) none → PegN env t N (.seq (p :: ps)) i none
  | seq {N p ps i j o} : PegN env t N p (N i) (some j) → PegN env t N (.seq ps) j o →
      PegN env t N (.seq (p :: ps)) i o
  | altNil {N i} : PegN env t N (.alt []) i none
  | alt {N p ps i j} : PegN env t N p (N i) (some j) → PegN env t N (.alt (p :: ps)) i (some j)
  | altNo {N p ps i o} : PegN env t N p (N i) none → PegN env t N (.alt ps) i o →
      PegN env t N (.alt (p :: ps)) i o
  | repStop {N mx p i} : PegN env t N p (N i) none → PegN env t N (.rep 0 mx p) i (some i)
  | repFew {N mn mx p i} : 0 < mn → PegN env t N p (N i) none → PegN env t N (.rep mn mx p) i none
  | repLast {N mn p i j} : PegN env t N p (N i) (some j) → PegN env t N (.rep mn 1 p) i (some j)
  | repMore {N mn mx p i j o} : mx ≠ 1 → PegN env t N p (N i) (some j) →
      PegN env t N (.rep (mn - 1) (mx - 1) p) j o → PegN env t N (.rep mn mx p) i o
  | opt {N p i j} : PegN env t N p (N i) (some j) → PegN env t N (.opt p) i (some j)
  | optNo {N p i} : PegN env t N p (N i) none → PegN env t N (.opt p) i (some i)
  | not {N p i} : PegN env t N p (N i) none → PegN env t N (.not p) i (some i)
  | notNo {N p i j} : PegN env t N p (N i) (some j) → PegN env t N (.not p) i none
  | discard {N p i o} : PegN env t N p (N i) o → PegN env t N (.discard p) i o
  | lexeme {N p i o} : PegN env t id p i o → PegN env t N (.lexeme p) i o
  | bindDst {N p i o} : PegN env t N p (N i) o → PegN env t N (.bindDst p) i o
  | construct {N tys p i o} : PegN env t N p (N i) o → PegN env t N (.construct tys p) i o
  | action {N a p i o} : PegN env t N p (N i) o → PegN env t N (.action a p) i o
  | except {N op neg i o} : PegN env t N neg (N i) none → PegN env t N op (N i) o →
      PegN env t N (.except op neg) i o
  | exceptNo {N op neg i j} : PegN env t N neg (N i) (some j) →
      PegN env t N (.except op neg) i none
  | listNil {N op sep i} : PegN env t N op (N i) none → PegN env t N (.list op sep) i (some i)
  | list {N op sep i j o} : PegN env t N op (N i) (some j) →
      PegN env t N (.rep 0 0 (.seq [sep, op])) j o → PegN env t N (.list op sep) i o
  | recur {N id n q i o} : env id = some q → PegN env t N q (N i) o →
      PegN env t N (.recur id n) i o

/-- Without skipping it is the plain grammar semantics. -/
theorem Peg.toN {env t p i o} (h : Peg env t p i o) : PegN env t id p i o := by
  induction h with
  | char h1 h2 => exact .char h1 h2
  | charNo h => exact .charNo h
  | charSymbol h1 h2 => exact .charSymbol h1 h2
  | charSymbolNo h => exact .charSymbolNo h
  | strLit h => exact .strLit h
  | strLitNo h => exact .strLitNo h
  | symbol h1 h2 => exact .symbol h1 h2
  | symbolNo h => exact .symbolNo h
  | uint h => exact .uint h
  | uintNo h => exact .uintNo h
  | int h1 h2 => exact .int h1 h2
  | intNo h1 h2 => exact .intNo h1 h2
  | eoi h => exact .eoi h
  | eoiNo h => exact .eoiNo h
  | pass => exact .pass
  | fail => exact .fail
  | seqNil => exact .seqNil
  | seqNo _ ih => exact .seqNo ih
  | seq _ _ ih1 ih2 => exact .seq ih1 ih2
  | altNil => exact .altNil
  | alt _ ih => exact .alt ih
  | altNo _ _ ih1 ih2 => exact .altNo ih1 ih2
  | repStop _ ih => exact .repStop ih
  | repFew h _ ih => exact .repFew h ih
  | repLast _ ih => exact .repLast ih
  | repMore h _ _ ih1 ih2 => exact .repMore h ih1 ih2
  | opt _ ih => exact .opt ih
  | optNo _ ih => exact .optNo ih
  | not _ ih => exact .not ih
  | notNo _ ih => exact .notNo ih
  | discard _ ih => exact .discard ih
  | lexeme _ ih => exact .lexeme ih
  | bindDst _ ih => exact .bindDst ih
  | construct _ ih => exact .construct ih
  | action _ ih => exact .action ih
  | except _ _ ih1 ih2 => exact .except ih1 ih2
  | exceptNo _ ih => exact .exceptNo ih
  | listNil _ ih => exact .listNil ih
  | list _ _ ih1 ih2 => exact .list ih1 ih2
  | recur hq _ ih => exact .recur hq ih

theorem PegN.toPeg' {env t N p i o} (h : PegN env t N p i o) : N = id → Peg env t p i o := by
  induction h with
  | char h1 h2 => intro _; exact .char h1 h2
  | charNo h => intro _; exact .charNo h
  | charSymbol h1 h2 => intro _; exact .charSymbol h1 h2
  | charSymbolNo h => intro _; exact .charSymbolNo h
  | strLit h => intro _; exact .strLit h
  | strLitNo h => intro _; exact .strLitNo h
  | symbol h1 h2 => intro _; exact .symbol h1 h2
  | symbolNo h => intro _; exact .symbolNo h
  | uint h => intro _; exact .uint h
  | uintNo h => intro _; exact .uintNo h
  | int h1 h2 => intro _; exact .int h1 h2
  | intNo h1 h2 => intro _; exact .intNo h1 h2
  | eoi h => intro _; exact .eoi h
  | eoiNo h => intro _; exact .eoiNo h
  | pass => intro _; exact .pass
  | fail => intro _; exact .fail
  | seqNil => intro _; exact .seqNil
  | seqNo _ ih => rintro rfl; exact .seqNo (ih rfl)
  | seq _ _ ih1 ih2 => rintro rfl; exact .seq (ih1 rfl) (ih2 rfl)
  | altNil => intro _; exact .altNil
  | alt _ ih => rintro rfl; exact .alt (ih rfl)
  | altNo _ _ ih1 ih2 => rintro rfl; exact .altNo (ih1 rfl) (ih2 rfl)
  | repStop _ ih => rintro rfl; exact .repStop (ih rfl)
  | repFew h _ ih => rintro rfl; exact .repFew h (ih rfl)
  | repLast _ ih => rintro rfl; exact .repLast (ih rfl)
  | repMore h _ _ ih1 ih2 => rintro rfl; exact .repMore h (ih1 rfl) (ih2 rfl)
  | opt _ ih => rintro rfl; exact .opt (ih rfl)
  | optNo _ ih => rintro rfl; exact .optNo (ih rfl)
  | not _ ih => rintro rfl; exact .not (ih rfl)
  | notNo _ ih => rintro rfl; exact .notNo (ih rfl)
  | discard _ ih => rintro rfl; exact .discard (ih rfl)
  | lexeme _ ih => intro _; exact .lexeme (ih rfl)
  | bindDst _ ih => rintro rfl; exact .bindDst (ih rfl)
  | construct _ ih => rintro rfl; exact .construct (ih rfl)
  | action _ ih => rintro rfl; exact .action (ih rfl)
  | except _ _ ih1 ih2 => rintro rfl; exact .except (ih1 rfl) (ih2 rfl)
  | exceptNo _ ih => rintro rfl; exact .exceptNo (ih rfl)
  | listNil _ ih => rintro rfl; exact .listNil (ih rfl)
  | list _ _ ih1 ih2 => rintro rfl; exact .list (ih1 rfl) (ih2 rfl)
  | recur hq _ ih => rintro rfl; exact .recur hq (ih rfl)

theorem PegN.toPeg {env t p i o} (h : PegN env t id p i o) : Peg env t p i o := h.toPeg' rfl

/-- A pattern has at most one outcome. -/
theorem PegN.unique {env t N p i o o'} (h : PegN env t N p i o) (h' : PegN env t N p i o') : o = o' := by
  induction h generalizing o' with
  | char h1 h2 =>
    cases h' with
    | char => rfl
    | charNo h => rw [h _ h1] at h2; cases h2
  | charNo h =>
    cases h' with
    | char h1 h2 => rw [h _ h1] at h2; cases h2
    | charNo => rfl
  | charSymbol h1 h2 =>
    cases h' with
    | charSymbol => rfl
    | charSymbolNo h => rw [h _ h1] at h2; cases h2
  | charSymbolNo h =>
    cases h' with
    | charSymbol h1 h2 => rw [h _ h1] at h2; cases h2
    | charSymbolNo => rfl
  | strLit h => cases h' with | strLit => rfl | strLitNo h2 => exact absurd h h2
  | strLitNo h => cases h' with | strLit h2 => exact absurd h2 h | strLitNo => rfl
  | symbol h1 h2 =>
    cases h' with
    | symbol h3 h4 => have := h2 _ h3; have := h4 _ h1; simp only [Option.some.injEq]; omega
    | symbolNo h3 => exact absurd h1 (h3 _)
  | symbolNo h => cases h' with | symbol h3 h4 => exact absurd h3 (h _) | symbolNo => rfl
  | uint h => cases h' with | uint => rfl | uintNo => omega
  | uintNo h => cases h' with | uint => omega | uintNo => rfl
  | int h1 h => subst h1; cases h' with | int h2 => subst h2; rfl | intNo h2 => subst h2; omega
  | intNo h1 h => subst h1; cases h' with | int h2 => subst h2; omega | intNo => rfl
  | eoi h => cases h' with | eoi => rfl | eoiNo => omega
  | eoiNo h => cases h' with | eoi => omega | eoiNo => rfl
  | pass => cases h'; rfl
  | fail => cases h'; rfl
  | seqNil => cases h'; rfl
  | seqNo _ ih => cases h' with | seqNo => rfl | seq h1 => cases ih h1
  | seq _ _ ih1 ih2 =>
    cases h' with
    | seqNo h1 => cases ih1 h1
    | seq h1 h2 => cases ih1 h1; exact ih2 h2
  | altNil => cases h'; rfl
  | alt _ ih => cases h' with | alt h1 => exact ih h1 | altNo h1 => cases ih h1
  | altNo _ _ ih1 ih2 => cases h' with | alt h1 => cases ih1 h1 | altNo h1 h2 => exact ih2 h2
  | repStop _ ih =>
    cases h' with
    | repStop => rfl
    | repFew => omega
    | repLast h1 => cases ih h1
    | repMore _ h1 => cases ih h1
  | repFew _ _ ih =>
    cases h' with
    | repStop => omega
    | repFew => rfl
    | repLast h1 => cases ih h1
    | repMore _ h1 => cases ih h1
  | repLast _ ih =>
    cases h' with
    | repStop h1 => cases ih h1
    | repFew _ h1 => cases ih h1
    | repLast h1 => exact ih h1
    | repMore h => exact absurd rfl h
  | repMore hm _ _ ih1 ih2 =>
    cases h' with
    | repStop h1 => cases ih1 h1
    | repFew _ h1 => cases ih1 h1
    | repLast h1 => exact absurd rfl hm
    | repMore _ h1 h2 => cases ih1 h1; exact ih2 h2
  | opt _ ih => cases h' with | opt h1 => exact ih h1 | optNo h1 => cases ih h1
  | optNo _ ih => cases h' with | opt h1 => cases ih h1 | optNo => rfl
  | not _ ih => cases h' with | not => rfl | notNo h1 => cases ih h1
  | notNo _ ih => cases h' with | not h1 => cases ih h1 | notNo => rfl
  | discard _ ih => cases h' with | discard h1 => exact ih h1
  | lexeme _ ih => cases h' with | lexeme h1 => exact ih h1
  | bindDst _ ih => cases h' with | bindDst h1 => exact ih h1
  | construct _ ih => cases h' with | construct h1 => exact ih h1
  | action _ ih => cases h' with | action h1 => exact ih h1
  | except _ _ ih1 ih2 =>
    cases h' with
    | except _ h2 => exact ih2 h2
    | exceptNo h1 => cases ih1 h1
  | exceptNo _ ih1 => cases h' with | except h1 => cases ih1 h1 | exceptNo => rfl
  | listNil _ ih => cases h' with | listNil => rfl | list h1 => cases ih h1
  | list _ _ ih1 ih2 =>
    cases h' with
    | listNil h1 => cases ih1 h1
    | list h1 h2 => cases ih1 h1; exact ih2 h2
  | recur hq _ ih => cases h' with | recur hq' h1 => rw [hq] at hq'; cases hq'; exact ih h1

end Abu
