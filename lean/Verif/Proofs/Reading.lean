import Verif.Spec.Reading
import Verif.Proofs.Sequence
import Verif.Props.Chars
/-
Lemmas for C60: what the operators build is read as it is written.
-/
namespace Abu

/-! ### Grammar of nested sequences and alternatives -/

theorem Peg.seq_append {env t i o} {xs ys : List Pat} :
    Peg env t (.seq (xs ++ ys)) i o ↔
      (Peg env t (.seq xs) i none ∧ o = none) ∨
        ∃ j, Peg env t (.seq xs) i (some j) ∧ Peg env t (.seq ys) j o := by
  induction xs generalizing i with
  | nil =>
    constructor
    · intro h; exact .inr ⟨i, .seqNil, h⟩
    · rintro (⟨h, _⟩ | ⟨j, h, h'⟩)
      · cases h
      · cases h; exact h'
  | cons x xs ih =>
    constructor
    · intro h
      rw [List.cons_append] at h
      cases h with
      | seqNo h => exact .inl ⟨.seqNo h, rfl⟩
      | seq h h' =>
        rcases ih.1 h' with ⟨h1, h2⟩ | ⟨j, h1, h2⟩
        · exact .inl ⟨.seq h h1, h2⟩
        · exact .inr ⟨j, .seq h h1, h2⟩
    · rw [List.cons_append]
      rintro (⟨h, rfl⟩ | ⟨j, h, h'⟩)
      · cases h with
        | seqNo h => exact .seqNo h
        | seq h h1 => exact .seq h (ih.2 (.inl ⟨h1, rfl⟩))
      · cases h with
        | seq h h1 => exact .seq h (ih.2 (.inr ⟨j, h1, h'⟩))

theorem Peg.seq_one {env t i o} {p : Pat} : Peg env t (.seq [p]) i o ↔ Peg env t p i o := by
  constructor
  · intro h
    cases h with
    | seqNo h => exact h
    | seq h h' => cases h'; exact h
  · intro h
    cases o with
    | none => exact .seqNo h
    | some j => exact .seq h .seqNil

theorem Peg.elements {env t i o} {p : Pat} : Peg env t (.seq p.elements) i o ↔ Peg env t p i o := by
  cases p with
  | seq ps => exact Iff.rfl
  | _ => exact Peg.seq_one

theorem Peg.seqOp {env t i o} {p q : Pat} :
    Peg env t (p.seqOp q) i o ↔
      (Peg env t p i none ∧ o = none) ∨ ∃ j, Peg env t p i (some j) ∧ Peg env t q j o := by
  rw [seqOp_eq, Peg.seq_append]
  simp only [Peg.elements]

theorem Peg.alt_append {env t i o} {xs ys : List Pat} :
    Peg env t (.alt (xs ++ ys)) i o ↔
      (∃ j, Peg env t (.alt xs) i (some j) ∧ o = some j) ∨
        (Peg env t (.alt xs) i none ∧ Peg env t (.alt ys) i o) := by
  induction xs with
  | nil =>
    constructor
    · intro h; exact .inr ⟨.altNil, h⟩
    · rintro (⟨j, h, _⟩ | ⟨h, h'⟩)
      · cases h
      · exact h'
  | cons x xs ih =>
    constructor
    · intro h
      rw [List.cons_append] at h
      cases h with
      | alt h => exact .inl ⟨_, .alt h, rfl⟩
      | altNo h h' =>
        rcases ih.1 h' with ⟨j, h1, h2⟩ | ⟨h1, h2⟩
        · exact .inl ⟨j, .altNo h h1, h2⟩
        · exact .inr ⟨.altNo h h1, h2⟩
    · rw [List.cons_append]
      rintro (⟨j, h, rfl⟩ | ⟨h, h'⟩)
      · cases h with
        | alt h => exact .alt h
        | altNo h h1 => exact .altNo h (ih.2 (.inl ⟨j, h1, rfl⟩))
      · cases h with
        | altNo h h1 => exact .altNo h (ih.2 (.inr ⟨h1, h'⟩))

theorem Peg.alt_one {env t i o} {p : Pat} : Peg env t (.alt [p]) i o ↔ Peg env t p i o := by
  constructor
  · intro h
    cases h with
    | alt h => exact h
    | altNo h h' => cases h'; exact h
  · intro h
    cases o with
    | none => exact .altNo h .altNil
    | some j => exact .alt h

theorem Peg.choices {env t i o} {p : Pat} : Peg env t (.alt p.choices) i o ↔ Peg env t p i o := by
  cases p with
  | alt ps => exact Iff.rfl
  | _ => exact Peg.alt_one

theorem Peg.altOp {env t i o} {p q : Pat} :
    Peg env t (p.altOp q) i o ↔
      (∃ j, Peg env t p i (some j) ∧ o = some j) ∨ (Peg env t p i none ∧ Peg env t q i o) := by
  rw [altOp_eq, Peg.alt_append]
  simp only [Peg.choices]

/-! ### Repetition -/

section
variable {env : Env} {t : List Ch}

/-- The pattern and the expression match alike everywhere. -/
def SaysSame (env : Env) (t : List Ch) (p : Pat) (e : CExpr) : Prop :=
  ∀ i o, Peg env t p i o ↔ ReadAs env t e i o

theorem SaysSame.rep_of_peg {p : Pat} {e : CExpr} (h : SaysSame env t p e) {P : Pat} {i o}
    (hp : Peg env t P i o) : ∀ {mn mx}, P = .rep mn mx p → ReadAs env t (.repeated mn mx e) i o := by
  induction hp with
  | repStop h1 => intro mn mx he; cases he; exact .repStop ((h _ _).1 h1)
  | repFew h0 h1 => intro mn mx he; cases he; exact .repFew h0 ((h _ _).1 h1)
  | repLast h1 => intro mn mx he; cases he; exact .repLast ((h _ _).1 h1)
  | repMore h0 h1 _ _ ih => intro mn mx he; cases he; exact .repMore h0 ((h _ _).1 h1) (ih rfl)
  | _ => intro mn mx he; cases he

theorem SaysSame.rep_of_reads {p : Pat} {e : CExpr} (h : SaysSame env t p e) {E : CExpr} {i o}
    (hp : ReadAs env t E i o) : ∀ {mn mx}, E = .repeated mn mx e → Peg env t (.rep mn mx p) i o := by
  induction hp with
  | repStop h1 => intro mn mx he; cases he; exact .repStop ((h _ _).2 h1)
  | repFew h0 h1 => intro mn mx he; cases he; exact .repFew h0 ((h _ _).2 h1)
  | repLast h1 => intro mn mx he; cases he; exact .repLast ((h _ _).2 h1)
  | repMore h0 h1 _ _ ih => intro mn mx he; cases he; exact .repMore h0 ((h _ _).2 h1) (ih rfl)
  | set h1 | setNo h1 =>
    intro mn mx he; subst he; simp only [CExpr.kind] at h1
    cases he : e.kind <;> rw [he] at h1 <;> cases h1
  | _ => intro mn mx he; cases he

theorem SaysSame.rep {p : Pat} {e : CExpr} (h : SaysSame env t p e) (mn mx : Nat) :
    SaysSame env t (.rep mn mx p) (.repeated mn mx e) :=
  fun _ _ => ⟨fun hp => h.rep_of_peg hp rfl, fun hr => h.rep_of_reads hr rfl⟩

/-! ### The operators, on patterns -/

theorem kind_op_ne (a b : Option Kind) : Kind.op a b ≠ some .set := by
  rcases a with _ | a <;> rcases b with _ | b <;> try cases a
  all_goals try cases b
  all_goals (intro h; cases h)

theorem kind_any_ne (a : Option Kind) : Kind.any a ≠ some .set := by
  cases a <;> intro h <;> cases h

theorem kind_any2_ne (a b : Option Kind) : Kind.any2 a b ≠ some .set := by
  cases a <;> cases b <;> intro h <;> cases h

theorem kind_only_ne (a : Option Kind) : Kind.only .pat a ≠ some .set := by
  cases a with
  | none => intro h; cases h
  | some k => cases k <;> intro h <;> cases h

theorem SaysSame.shr {p q : Pat} {l r : CExpr} (hl : SaysSame env t p l) (hr : SaysSame env t q r) :
    SaysSame env t (p.seqOp q) (.shr l r) := by
  intro i o
  rw [Peg.seqOp]
  constructor
  · rintro (⟨h, rfl⟩ | ⟨j, h, h'⟩)
    · exact .shrNo ((hl _ _).1 h)
    · exact .shr ((hl _ _).1 h) ((hr _ _).1 h')
  · intro h
    cases h with
    | set h1 => exact absurd h1 (kind_op_ne _ _)
    | setNo h1 => exact absurd h1 (kind_op_ne _ _)
    | shr h h' => exact .inr ⟨_, (hl _ _).2 h, (hr _ _).2 h'⟩
    | shrNo h => exact .inl ⟨(hl _ _).2 h, rfl⟩

theorem SaysSame.bar {p q : Pat} {l r : CExpr} (hk : (CExpr.bar l r).kind ≠ some .set)
    (hl : SaysSame env t p l) (hr : SaysSame env t q r) : SaysSame env t (p.altOp q) (.bar l r) := by
  intro i o
  rw [Peg.altOp]
  constructor
  · rintro (⟨j, h, rfl⟩ | ⟨h, h'⟩)
    · exact .bar hk ((hl _ _).1 h)
    · exact .barNo hk ((hl _ _).1 h) ((hr _ _).1 h')
  · intro h
    cases h with
    | set h1 => exact absurd h1 hk
    | setNo h1 => exact absurd h1 hk
    | bar _ h => exact .inl ⟨_, (hl _ _).2 h, rfl⟩
    | barNo _ h h' => exact .inr ⟨(hl _ _).2 h, (hr _ _).2 h'⟩

theorem SaysSame.except {p q : Pat} {l r : CExpr} (hl : SaysSame env t p l) (hr : SaysSame env t q r) :
    SaysSame env t (.except p q) (.except l r) := by
  intro i o
  constructor
  · intro h
    cases h with
    | except h h' => exact .except ((hr _ _).1 h) ((hl _ _).1 h')
    | exceptNo h => exact .exceptNo ((hr _ _).1 h)
  · intro h
    cases h with
    | set h1 => exact absurd h1 (kind_any2_ne _ _)
    | setNo h1 => exact absurd h1 (kind_any2_ne _ _)
    | except h h' => exact .except ((hr _ _).2 h) ((hl _ _).2 h')
    | exceptNo h => exact .exceptNo ((hr _ _).2 h)

theorem SaysSame.minus {p : Pat} {l r : CExpr} (h : SaysSame env t p (.except l r)) :
    SaysSame env t p (.minus l r) := by
  intro i o
  rw [h i o]
  constructor
  · exact .minus
  · intro h
    cases h with
    | set h1 => exact absurd h1 (kind_op_ne _ _)
    | setNo h1 => exact absurd h1 (kind_op_ne _ _)
    | minus h => exact h

theorem Peg.pair {i o} {p q : Pat} :
    Peg env t (.seq [p, q]) i o ↔
      (Peg env t p i none ∧ o = none) ∨ ∃ j, Peg env t p i (some j) ∧ Peg env t q j o := by
  rw [show [p, q] = [p] ++ [q] from rfl, Peg.seq_append]
  simp only [Peg.seq_one]

theorem SaysSame.pair {p q : Pat} {l r : CExpr} (hl : SaysSame env t p l) (hr : SaysSame env t q r) :
    SaysSame env t (.seq [p, q]) (.shr l r) := by
  intro i o
  rw [← SaysSame.shr hl hr i o, Peg.seqOp, Peg.pair]

theorem SaysSame.list {p q : Pat} {l r : CExpr} (hl : SaysSame env t p l) (hr : SaysSame env t q r) :
    SaysSame env t (.list p q) (.list l r) := by
  have h2 := (hr.pair hl).rep 0 0
  intro i o
  constructor
  · intro h
    cases h with
    | listNil h => exact .listNil ((hl _ _).1 h)
    | list h h' => exact .list ((hl _ _).1 h) ((h2 _ _).1 h')
  · intro h
    cases h with
    | set h1 => exact absurd h1 (kind_any2_ne _ _)
    | setNo h1 => exact absurd h1 (kind_any2_ne _ _)
    | listNil h => exact .listNil ((hl _ _).2 h)
    | list h h' => exact .list ((hl _ _).2 h) ((h2 _ _).2 h')

theorem SaysSame.mod {p : Pat} {l r : CExpr} (h : SaysSame env t p (.list l r)) :
    SaysSame env t p (.mod l r) := by
  intro i o
  rw [h i o]
  constructor
  · exact .mod
  · intro h
    cases h with
    | set h1 => exact absurd h1 (kind_op_ne _ _)
    | setNo h1 => exact absurd h1 (kind_op_ne _ _)
    | mod h => exact h

theorem SaysSame.star {p : Pat} {e : CExpr} (h : SaysSame env t p e) : SaysSame env t p.star (.star e) := by
  intro i o
  rw [Pat.star, h.rep 0 0 i o]
  constructor
  · exact .star
  · intro h
    cases h with
    | set h1 => exact absurd h1 (kind_only_ne _)
    | setNo h1 => exact absurd h1 (kind_only_ne _)
    | star h => exact h

theorem SaysSame.plus {p : Pat} {e : CExpr} (h : SaysSame env t p e) : SaysSame env t p.plus (.plus e) := by
  intro i o
  rw [Pat.plus, h.rep 1 0 i o]
  constructor
  · exact .plus
  · intro h
    cases h with
    | set h1 => exact absurd h1 (kind_only_ne _)
    | setNo h1 => exact absurd h1 (kind_only_ne _)
    | plus h => exact h

theorem SaysSame.neg {p : Pat} {e : CExpr} (he : SaysSame env t p e) : SaysSame env t (.opt p) (.neg e) := by
  intro i o
  constructor
  · intro h
    cases h with
    | opt h => exact .neg ((he _ _).1 h)
    | optNo h => exact .negNo ((he _ _).1 h)
  · intro h
    cases h with
    | set h1 => exact absurd h1 (kind_only_ne _)
    | setNo h1 => exact absurd h1 (kind_only_ne _)
    | neg h => exact .opt ((he _ _).2 h)
    | negNo h => exact .optNo ((he _ _).2 h)

theorem SaysSame.bang {p : Pat} {e : CExpr} (he : SaysSame env t p e) : SaysSame env t (.not p) (.bang e) := by
  intro i o
  constructor
  · intro h
    cases h with
    | not h => exact .bang ((he _ _).1 h)
    | notNo h => exact .bangNo ((he _ _).1 h)
  · intro h
    cases h with
    | set h1 => exact absurd h1 (kind_only_ne _)
    | setNo h1 => exact absurd h1 (kind_only_ne _)
    | bang h => exact .not ((he _ _).2 h)
    | bangNo h => exact .notNo ((he _ _).2 h)

theorem SaysSame.discard {p : Pat} {e : CExpr} (he : SaysSame env t p e) :
    SaysSame env t (.discard p) (.discard e) := by
  intro i o
  constructor
  · intro h; cases h with | discard h => exact .discard ((he _ _).1 h)
  · intro h
    cases h with
    | set h1 => exact absurd h1 (kind_any_ne _)
    | setNo h1 => exact absurd h1 (kind_any_ne _)
    | discard h => exact .discard ((he _ _).2 h)

theorem SaysSame.lexeme {p : Pat} {e : CExpr} (he : SaysSame env t p e) :
    SaysSame env t (.lexeme p) (.lexeme e) := by
  intro i o
  constructor
  · intro h; cases h with | lexeme h => exact .lexeme ((he _ _).1 h)
  · intro h
    cases h with
    | set h1 => exact absurd h1 (kind_any_ne _)
    | setNo h1 => exact absurd h1 (kind_any_ne _)
    | lexeme h => exact .lexeme ((he _ _).2 h)

theorem SaysSame.bindDst {p : Pat} {e : CExpr} (he : SaysSame env t p e) :
    SaysSame env t (.bindDst p) (.bindDst e) := by
  intro i o
  constructor
  · intro h; cases h with | bindDst h => exact .bindDst ((he _ _).1 h)
  · intro h
    cases h with
    | set h1 => exact absurd h1 (kind_any_ne _)
    | setNo h1 => exact absurd h1 (kind_any_ne _)
    | bindDst h => exact .bindDst ((he _ _).2 h)

theorem SaysSame.action {a : Act} {p : Pat} {e : CExpr} (he : SaysSame env t p e) :
    SaysSame env t (.action a p) (.action a e) := by
  intro i o
  constructor
  · intro h; cases h with | action h => exact .action ((he _ _).1 h)
  · intro h
    cases h with
    | set h1 => exact absurd h1 (kind_only_ne _)
    | setNo h1 => exact absurd h1 (kind_only_ne _)
    | action h => exact .action ((he _ _).2 h)

theorem SaysSame.construct {tys : List Ty} {p : Pat} {e : CExpr} (he : SaysSame env t p e) :
    SaysSame env t (.construct tys p) (.construct tys e) := by
  intro i o
  constructor
  · intro h; cases h with | construct h => exact .construct ((he _ _).1 h)
  · intro h
    cases h with
    | set h1 => exact absurd h1 (kind_only_ne _)
    | setNo h1 => exact absurd h1 (kind_only_ne _)
    | construct h => exact .construct ((he _ _).2 h)

theorem SaysSame.chr {c : Ch} : SaysSame env t (litC c) (.chr c) := by
  intro i o
  constructor
  · intro h
    cases h with
    | discard h =>
      cases h with
      | char h1 h2 =>
        simp only [CharSet.isValid, beq_iff_eq] at h2
        subst h2; exact .chr h1
      | charNo h1 =>
        refine .chrNo fun h2 => ?_
        have := h1 _ h2
        simp [CharSet.isValid] at this
  · intro h
    cases h with
    | set h1 => cases h1
    | setNo h1 => cases h1
    | chr h1 => exact .discard (.char h1 (by simp [CharSet.isValid]))
    | chrNo h1 =>
      refine .discard (.charNo fun c' h2 => ?_)
      simp only [CharSet.isValid, beq_eq_false_iff_ne]
      intro h; subst h; exact h1 h2

theorem SaysSame.str {s : List Ch} : SaysSame env t (.strLit s) (.str s) := by
  intro i o
  constructor
  · intro h
    cases h with
    | strLit h => exact .str h
    | strLitNo h => exact .strNo h
  · intro h
    cases h with
    | set h1 => cases h1
    | setNo h1 => cases h1
    | str h => exact .strLit h
    | strNo h => exact .strLitNo h

theorem SaysSame.pat {p : Pat} : SaysSame env t p (.pat p) := by
  intro i o
  constructor
  · exact .pat
  · intro h
    cases h with
    | set h1 => cases h1
    | setNo h1 => cases h1
    | pat h => exact h

theorem SaysSame.set {s : CharSet} {e : CExpr} (hk : e.kind = some .set)
    (hs : ∀ c ∈ t, s.isValid c = true ↔ e.has c) : SaysSame env t (.char s) e := by
  have hm : ∀ {i c}, t[i]? = some c → c ∈ t := fun h => List.mem_of_getElem? h
  intro i o
  constructor
  · intro h
    cases h with
    | char h1 h2 => exact .set hk h1 ((hs _ (hm h1)).1 h2)
    | charNo h1 =>
      refine .setNo hk fun c hc hh => ?_
      have := (hs _ (hm hc)).2 hh
      rw [h1 _ hc] at this; cases this
  · intro h
    cases h with
    | set _ h1 h2 => exact .char h1 ((hs _ (hm h1)).2 h2)
    | setNo _ h1 =>
      refine .charNo fun c hc => ?_
      cases hv : s.isValid c with
      | false => rfl
      | true => exact absurd ((hs _ (hm hc)).1 hv) (h1 _ hc)
    | bar hk' => exact absurd hk hk'
    | barNo hk' => exact absurd hk hk'
    | chr => cases hk
    | chrNo => cases hk
    | str => cases hk
    | strNo => cases hk
    | pat => cases hk
    | shr => exact absurd hk (kind_op_ne _ _)
    | shrNo => exact absurd hk (kind_op_ne _ _)
    | except => exact absurd hk (kind_any2_ne _ _)
    | exceptNo => exact absurd hk (kind_any2_ne _ _)
    | minus => exact absurd hk (kind_op_ne _ _)
    | repStop => exact absurd hk (kind_any_ne _)
    | repFew => exact absurd hk (kind_any_ne _)
    | repLast => exact absurd hk (kind_any_ne _)
    | repMore => exact absurd hk (kind_any_ne _)
    | star => exact absurd hk (kind_only_ne _)
    | plus => exact absurd hk (kind_only_ne _)
    | listNil => exact absurd hk (kind_any2_ne _ _)
    | list => exact absurd hk (kind_any2_ne _ _)
    | mod => exact absurd hk (kind_op_ne _ _)
    | neg => exact absurd hk (kind_only_ne _)
    | negNo => exact absurd hk (kind_only_ne _)
    | bang => exact absurd hk (kind_only_ne _)
    | bangNo => exact absurd hk (kind_only_ne _)
    | discard => exact absurd hk (kind_any_ne _)
    | lexeme => exact absurd hk (kind_any_ne _)
    | bindDst => exact absurd hk (kind_any_ne _)
    | action => exact absurd hk (kind_only_ne _)
    | construct => exact absurd hk (kind_only_ne _)

end

/-! ### Values -/

/-- The kind of a value. -/
def CVal.kind : CVal → Option Kind
  | .chr _ => some .chr
  | .str _ => some .str
  | .set _ => some .set
  | .pat _ => some .pat
  | .num => none

/-- The value says what the expression says. -/
structure Stands (env : Env) (t : List Ch) (e : CExpr) (v : CVal) : Prop where
  kind : v.kind = e.kind
  set : ∀ u, v.toSet = some u → ∀ c ∈ t, u.isValid c = true ↔ e.has c
  pat : ∀ p, v.toPat = some p → SaysSame env t p e

theorem CVal.toPat_of_kind {v : CVal} {k} (h : v.kind = some k) : ∃ p, v.toPat = some p := by
  cases v <;> first | (cases h; done) | exact ⟨_, rfl⟩

theorem CVal.pat_of_kind {v : CVal} (h : v.kind = some .pat) : ∃ p, v = .pat p := by
  cases v <;> first | (cases h; done) | exact ⟨_, rfl⟩

theorem CVal.set_of_kind {v : CVal} (h : v.kind = some .set) : ∃ s, v = .set s := by
  cases v <;> first | (cases h; done) | exact ⟨_, rfl⟩

theorem Kind.op_some {a b : Option Kind} {k} (h : Kind.op a b = some k) :
    k = .pat ∧ (∃ x, a = some x) ∧ (∃ x, b = some x) ∧ (a = some .pat ∨ b = some .pat) := by
  rcases a with _ | a <;> rcases b with _ | b <;> try cases a
  all_goals try cases b
  all_goals first | (cases h; done) | (cases h; simp)

theorem Kind.only_some {k k' : Kind} {a : Option Kind} (h : Kind.only k a = some k') :
    k' = k ∧ a = some k := by
  cases a with
  | none => cases h
  | some x =>
    simp only [Kind.only] at h
    split at h
    · rename_i hx; subst hx; cases h; exact ⟨rfl, rfl⟩
    · cases h

theorem Kind.any_some {k' : Kind} {a : Option Kind} (h : Kind.any a = some k') :
    k' = .pat ∧ ∃ x, a = some x := by
  cases a <;> cases h; exact ⟨rfl, _, rfl⟩

theorem Kind.any2_some {k' : Kind} {a b : Option Kind} (h : Kind.any2 a b = some k') :
    k' = .pat ∧ (∃ x, a = some x) ∧ ∃ x, b = some x := by
  cases a <;> cases b <;> cases h; exact ⟨rfl, ⟨_, rfl⟩, _, rfl⟩

theorem patOp_of_kind {f : Pat → Pat → Pat} {v w : CVal} {p q : Pat} (hv : v.toPat = some p)
    (hw : w.toPat = some q) (h : v.kind = some .pat ∨ w.kind = some .pat) :
    patOp f v w = some (f p q) := by
  cases v <;> cases w <;> simp_all [CVal.kind, CVal.toPat, patOp]

theorem opOrInt_of_kind {f : Pat → Pat → Pat} {v w : CVal} {p q : Pat} (hv : v.toPat = some p)
    (hw : w.toPat = some q) (h : v.kind = some .pat ∨ w.kind = some .pat) :
    opOrInt f v w = .ok (.pat (f p q)) := by
  rw [opOrInt, patOp_of_kind hv hw h]

theorem minus_of_kind {v w : CVal} {p q : Pat} (hv : v.toPat = some p)
    (hw : w.toPat = some q) (h : v.kind = some .pat ∨ w.kind = some .pat) :
    v.minus w = .ok (.pat (.except p q)) := by
  have h1 : v.minus w = opOrInt Pat.except v w := by
    cases v <;> cases w <;> first | rfl | (simp [CVal.kind] at h; done)
  rw [h1, opOrInt_of_kind hv hw h]

theorem stands_pat {env t e p k} (hk : e.kind = some k) (hp : k = .pat) (h : SaysSame env t p e) :
    Stands env t e (.pat p) :=
  ⟨by rw [hk, hp]; rfl, fun _ hu => by simp [CVal.toSet] at hu, fun q hq => by cases hq; exact h⟩

theorem has_str {s : List Ch} (h : ∀ c ∈ s, IsChar c ∧ c ≠ 0) {x : Ch} (hx : IsChar x) :
    (setOfCString (s ++ [0])).isValid x = true ↔ x ∈ s :=
  C06_char_sets_denote (.set s) h x hx

theorem eval_stands {env : Env} {t : List Ch} (ht : ∀ c ∈ t, IsChar c) :
    ∀ (e : CExpr) {k}, e.Legal → e.kind = some k → ∃ v, e.eval = .ok v ∧ Stands env t e v := by
  intro e
  induction e with
  | chr c =>
    intro k _ _
    refine ⟨_, rfl, rfl, ?_, fun p hp => by cases hp; exact .chr⟩
    intro u hu x _
    cases hu; simp [CharSet.isValid, CExpr.has]
  | str s =>
    intro k hl _
    refine ⟨_, rfl, rfl, ?_, fun p hp => by cases hp; exact .str⟩
    intro u hu x hx
    cases hu; exact has_str hl (ht x hx)
  | set s =>
    intro k _ _
    refine ⟨_, rfl, rfl, ?_, fun p hp => by cases hp; exact .set rfl fun _ _ => Iff.rfl⟩
    intro u hu x _
    cases hu; exact Iff.rfl
  | pat p =>
    intro k _ _
    exact ⟨_, rfl, stands_pat rfl rfl .pat⟩
  | shr l r ihl ihr =>
    intro k hL hk
    obtain ⟨rfl, ⟨kl, hkl⟩, ⟨kr, hkr⟩, ho⟩ := Kind.op_some hk
    obtain ⟨v, hv, hsv⟩ := ihl hL.1 hkl
    obtain ⟨w, hw, hsw⟩ := ihr hL.2 hkr
    obtain ⟨p, hp⟩ := CVal.toPat_of_kind (hsv.kind.trans hkl)
    obtain ⟨q, hq⟩ := CVal.toPat_of_kind (hsw.kind.trans hkr)
    rw [← hsv.kind, ← hsw.kind] at ho
    refine ⟨.pat (p.seqOp q), ?_, stands_pat hk rfl ((hsv.pat p hp).shr (hsw.pat q hq))⟩
    simp only [CExpr.eval, hv, hw, bind, Except.bind, CVal.shr, opOrInt_of_kind hp hq ho]
  | minus l r ihl ihr =>
    intro k hL hk
    obtain ⟨rfl, ⟨kl, hkl⟩, ⟨kr, hkr⟩, ho⟩ := Kind.op_some hk
    obtain ⟨v, hv, hsv⟩ := ihl hL.1 hkl
    obtain ⟨w, hw, hsw⟩ := ihr hL.2 hkr
    obtain ⟨p, hp⟩ := CVal.toPat_of_kind (hsv.kind.trans hkl)
    obtain ⟨q, hq⟩ := CVal.toPat_of_kind (hsw.kind.trans hkr)
    rw [← hsv.kind, ← hsw.kind] at ho
    refine ⟨.pat (.except p q), ?_, stands_pat hk rfl ((hsv.pat p hp).except (hsw.pat q hq)).minus⟩
    simp only [CExpr.eval, hv, hw, bind, Except.bind, minus_of_kind hp hq ho]
  | mod l r ihl ihr =>
    intro k hL hk
    obtain ⟨rfl, ⟨kl, hkl⟩, ⟨kr, hkr⟩, ho⟩ := Kind.op_some hk
    obtain ⟨v, hv, hsv⟩ := ihl hL.1 hkl
    obtain ⟨w, hw, hsw⟩ := ihr hL.2 hkr
    obtain ⟨p, hp⟩ := CVal.toPat_of_kind (hsv.kind.trans hkl)
    obtain ⟨q, hq⟩ := CVal.toPat_of_kind (hsw.kind.trans hkr)
    rw [← hsv.kind, ← hsw.kind] at ho
    refine ⟨.pat (.list p q), ?_, stands_pat hk rfl ((hsv.pat p hp).list (hsw.pat q hq)).mod⟩
    simp only [CExpr.eval, hv, hw, bind, Except.bind, CVal.mod, opOrInt_of_kind hp hq ho]
  | bar l r ihl ihr =>
    intro k hL hk
    have hk' : Kind.alt l.kind r.kind = some k := hk
    obtain ⟨kl, hkl⟩ : ∃ x, l.kind = some x := by
      cases h : l.kind with
      | some x => exact ⟨x, rfl⟩
      | none => rw [h] at hk'; cases hr : r.kind <;> rw [hr] at hk' <;> cases hk'
    obtain ⟨kr, hkr⟩ : ∃ x, r.kind = some x := by
      cases h : r.kind with
      | some x => exact ⟨x, rfl⟩
      | none => rw [h, hkl] at hk'; cases kl <;> cases hk'
    obtain ⟨v, hv, hsv⟩ := ihl hL.1 hkl
    obtain ⟨w, hw, hsw⟩ := ihr hL.2 hkr
    have hvk := hsv.kind.trans hkl
    have hwk := hsw.kind.trans hkr
    rw [hkl, hkr] at hk'
    simp only [CExpr.eval, hv, hw, bind, Except.bind]
    have union : ∀ {s u}, v.toSet = some s → w.toSet = some u → k = .set →
        Stands env t (.bar l r) (.set (.or s u)) := by
      intro s u hs hu hks
      have hh : ∀ c ∈ t, (CharSet.or s u).isValid c = true ↔ (CExpr.bar l r).has c := by
        intro c hc
        simp only [CharSet.isValid, Bool.or_eq_true, CExpr.has, hsv.set s hs c hc, hsw.set u hu c hc]
      refine ⟨by rw [hk, hks]; rfl, ?_, fun p hp => by cases hp; exact .set (hk.trans (by rw [hks])) hh⟩
      intro u' hu'; cases hu'; exact hh
    have choice : ∀ {p q}, v.toPat = some p → w.toPat = some q → k = .pat →
        Stands env t (.bar l r) (.pat (p.altOp q)) := by
      intro p q hp hq hkp
      exact stands_pat hk hkp (.bar (by rw [hk, hkp]; simp) (hsv.pat p hp) (hsw.pat q hq))
    cases v <;> cases w <;> cases hvk <;> cases hwk <;>
      first
      | (cases hk'; done)
      | exact ⟨_, rfl, union rfl rfl (by cases hk'; rfl)⟩
      | exact ⟨_, rfl, choice rfl rfl (by cases hk'; rfl)⟩
  | star e ih =>
    intro k hL hk
    obtain ⟨rfl, hke⟩ := Kind.only_some hk
    obtain ⟨v, hv, hsv⟩ := ih hL hke
    obtain ⟨p, rfl⟩ := CVal.pat_of_kind (hsv.kind.trans hke)
    refine ⟨.pat p.star, ?_, stands_pat hk rfl (hsv.pat p rfl).star⟩
    simp only [CExpr.eval, hv, bind, Except.bind, CVal.star]
  | plus e ih =>
    intro k hL hk
    obtain ⟨rfl, hke⟩ := Kind.only_some hk
    obtain ⟨v, hv, hsv⟩ := ih hL hke
    obtain ⟨p, rfl⟩ := CVal.pat_of_kind (hsv.kind.trans hke)
    refine ⟨.pat p.plus, ?_, stands_pat hk rfl (hsv.pat p rfl).plus⟩
    simp only [CExpr.eval, hv, bind, Except.bind, CVal.plus]
  | neg e ih =>
    intro k hL hk
    obtain ⟨rfl, hke⟩ := Kind.only_some hk
    obtain ⟨v, hv, hsv⟩ := ih hL hke
    obtain ⟨p, rfl⟩ := CVal.pat_of_kind (hsv.kind.trans hke)
    refine ⟨.pat (.opt p), ?_, stands_pat hk rfl (hsv.pat p rfl).neg⟩
    simp only [CExpr.eval, hv, bind, Except.bind, CVal.neg]
  | bang e ih =>
    intro k hL hk
    obtain ⟨rfl, hke⟩ := Kind.only_some hk
    obtain ⟨v, hv, hsv⟩ := ih hL hke
    obtain ⟨p, rfl⟩ := CVal.pat_of_kind (hsv.kind.trans hke)
    refine ⟨.pat (.not p), ?_, stands_pat hk rfl (hsv.pat p rfl).bang⟩
    simp only [CExpr.eval, hv, bind, Except.bind, CVal.bang]
  | tilde e ih =>
    intro k hL hk
    obtain ⟨rfl, hke⟩ := Kind.only_some hk
    obtain ⟨v, hv, hsv⟩ := ih hL hke
    obtain ⟨s, rfl⟩ := CVal.set_of_kind (hsv.kind.trans hke)
    have hh : ∀ c ∈ t, (CharSet.not s).isValid c = true ↔ (CExpr.tilde e).has c := by
      intro c hc
      simp only [CharSet.isValid, CExpr.has, ← hsv.set s rfl c hc]; simp
    refine ⟨.set (.not s), ?_, hk.symm, ?_, fun p hp => by cases hp; exact .set hk hh⟩
    · simp only [CExpr.eval, hv, bind, Except.bind, CVal.tilde]
    · intro u hu; cases hu; exact hh
  | discard e ih =>
    intro k hL hk
    obtain ⟨rfl, ke, hke⟩ := Kind.any_some hk
    obtain ⟨v, hv, hsv⟩ := ih hL hke
    obtain ⟨p, hp⟩ := CVal.toPat_of_kind (hsv.kind.trans hke)
    refine ⟨.pat (.discard p), ?_, stands_pat hk rfl (hsv.pat p hp).discard⟩
    simp only [CExpr.eval, hv, bind, Except.bind, CVal.via, hp]
  | lexeme e ih =>
    intro k hL hk
    obtain ⟨rfl, ke, hke⟩ := Kind.any_some hk
    obtain ⟨v, hv, hsv⟩ := ih hL hke
    obtain ⟨p, hp⟩ := CVal.toPat_of_kind (hsv.kind.trans hke)
    refine ⟨.pat (.lexeme p), ?_, stands_pat hk rfl (hsv.pat p hp).lexeme⟩
    simp only [CExpr.eval, hv, bind, Except.bind, CVal.via, hp]
  | bindDst e ih =>
    intro k hL hk
    obtain ⟨rfl, ke, hke⟩ := Kind.any_some hk
    obtain ⟨v, hv, hsv⟩ := ih hL hke
    obtain ⟨p, hp⟩ := CVal.toPat_of_kind (hsv.kind.trans hke)
    refine ⟨.pat (.bindDst p), ?_, stands_pat hk rfl (hsv.pat p hp).bindDst⟩
    simp only [CExpr.eval, hv, bind, Except.bind, CVal.via, hp]
  | repeated mn mx e ih =>
    intro k hL hk
    obtain ⟨rfl, ke, hke⟩ := Kind.any_some hk
    obtain ⟨v, hv, hsv⟩ := ih hL hke
    obtain ⟨p, hp⟩ := CVal.toPat_of_kind (hsv.kind.trans hke)
    refine ⟨.pat (.rep mn mx p), ?_, stands_pat hk rfl ((hsv.pat p hp).rep mn mx)⟩
    simp only [CExpr.eval, hv, bind, Except.bind, CVal.via, hp]
  | except l r ihl ihr =>
    intro k hL hk
    obtain ⟨rfl, ⟨kl, hkl⟩, ⟨kr, hkr⟩⟩ := Kind.any2_some hk
    obtain ⟨v, hv, hsv⟩ := ihl hL.1 hkl
    obtain ⟨w, hw, hsw⟩ := ihr hL.2 hkr
    obtain ⟨p, hp⟩ := CVal.toPat_of_kind (hsv.kind.trans hkl)
    obtain ⟨q, hq⟩ := CVal.toPat_of_kind (hsw.kind.trans hkr)
    refine ⟨.pat (.except p q), ?_, stands_pat hk rfl ((hsv.pat p hp).except (hsw.pat q hq))⟩
    simp only [CExpr.eval, hv, hw, bind, Except.bind, CVal.via2, hp, hq]
  | list l r ihl ihr =>
    intro k hL hk
    obtain ⟨rfl, ⟨kl, hkl⟩, ⟨kr, hkr⟩⟩ := Kind.any2_some hk
    obtain ⟨v, hv, hsv⟩ := ihl hL.1 hkl
    obtain ⟨w, hw, hsw⟩ := ihr hL.2 hkr
    obtain ⟨p, hp⟩ := CVal.toPat_of_kind (hsv.kind.trans hkl)
    obtain ⟨q, hq⟩ := CVal.toPat_of_kind (hsw.kind.trans hkr)
    refine ⟨.pat (.list p q), ?_, stands_pat hk rfl ((hsv.pat p hp).list (hsw.pat q hq))⟩
    simp only [CExpr.eval, hv, hw, bind, Except.bind, CVal.via2, hp, hq]
  | action a e ih =>
    intro k hL hk
    obtain ⟨rfl, hke⟩ := Kind.only_some hk
    obtain ⟨v, hv, hsv⟩ := ih hL hke
    obtain ⟨p, rfl⟩ := CVal.pat_of_kind (hsv.kind.trans hke)
    refine ⟨.pat (.action a p), ?_, stands_pat hk rfl (hsv.pat p rfl).action⟩
    simp only [CExpr.eval, hv, bind, Except.bind, CVal.member]
  | construct tys e ih =>
    intro k hL hk
    obtain ⟨rfl, hke⟩ := Kind.only_some hk
    obtain ⟨v, hv, hsv⟩ := ih hL hke
    obtain ⟨p, rfl⟩ := CVal.pat_of_kind (hsv.kind.trans hke)
    refine ⟨.pat (.construct tys p), ?_, stands_pat hk rfl (hsv.pat p rfl).construct⟩
    simp only [CExpr.eval, hv, bind, Except.bind, CVal.member]

/-! ### Which expressions are accepted -/

theorem Kind.alt_ne_str {a b : Option Kind} : Kind.alt a b ≠ some .str := by
  rcases a with _ | a <;> rcases b with _ | b <;> try cases a
  all_goals try cases b
  all_goals (intro h; cases h)

theorem str_of_kind {e : CExpr} (h : e.kind = some .str) : ∃ s, e = .str s := by
  cases e with
  | str s => exact ⟨s, rfl⟩
  | chr | set | pat => cases h
  | bar => exact absurd h Kind.alt_ne_str
  | shr | minus | mod => cases (Kind.op_some h).1
  | star | plus | neg | bang | tilde | action | construct => cases (Kind.only_some h).1
  | discard | lexeme | bindDst | repeated => cases (Kind.any_some h).1
  | except | list => cases (Kind.any2_some h).1

theorem opOrInt_kind {f : Pat → Pat → Pat} {v w u : CVal} (h : opOrInt f v w = .ok u) :
    u.kind = Kind.op v.kind w.kind := by
  cases v <;> cases w <;> first | (cases h; done) | (cases h; rfl)

theorem bar_kind {v w u : CVal} (h : v.bar w = .ok u) : u.kind = Kind.alt v.kind w.kind := by
  cases v <;> cases w <;> first | (cases h; done) | (cases h; rfl)

theorem minus_kind {v w u : CVal} (h : v.minus w = .ok u) :
    u.kind = Kind.op v.kind w.kind := by
  cases v <;> cases w <;> first | (cases h; done) | (cases h; rfl)

theorem eval_kind : ∀ (e : CExpr) {v}, e.noPointer = true → e.eval = .ok v → e.kind = v.kind := by
  have two : ∀ {l r : CExpr} {f : CVal → CVal → Except Err CVal} {u},
      (do f (← l.eval) (← r.eval)) = Except.ok (ε := Err) u →
      ∃ v w, l.eval = .ok v ∧ r.eval = .ok w ∧ f v w = .ok u := by
    intro l r f u h
    cases hl : l.eval with
    | error x => rw [hl] at h; cases h
    | ok v =>
      cases hr : r.eval with
      | error x => rw [hl, hr] at h; cases h
      | ok w => rw [hl, hr] at h; exact ⟨v, w, rfl, rfl, h⟩
  have one : ∀ {e : CExpr} {f : CVal → Except Err CVal} {u},
      (do f (← e.eval)) = Except.ok (ε := Err) u → ∃ v, e.eval = .ok v ∧ f v = .ok u := by
    intro e f u h
    cases hl : e.eval with
    | error x => rw [hl] at h; cases h
    | ok v => rw [hl] at h; exact ⟨v, rfl, h⟩
  intro e
  induction e with
  | chr | str | set | pat => intro v _ h; cases h; rfl
  | shr l r ihl ihr =>
    intro u hn h
    simp only [CExpr.noPointer, Bool.and_eq_true] at hn
    obtain ⟨v, w, hv, hw, h⟩ := two h
    rw [opOrInt_kind h, ← ihl hn.1 hv, ← ihr hn.2 hw]; rfl
  | mod l r ihl ihr =>
    intro u hn h
    simp only [CExpr.noPointer, Bool.and_eq_true] at hn
    obtain ⟨v, w, hv, hw, h⟩ := two h
    rw [opOrInt_kind h, ← ihl hn.1 hv, ← ihr hn.2 hw]; rfl
  | bar l r ihl ihr =>
    intro u hn h
    simp only [CExpr.noPointer, Bool.and_eq_true] at hn
    obtain ⟨v, w, hv, hw, h⟩ := two h
    rw [bar_kind h, ← ihl hn.1 hv, ← ihr hn.2 hw]; rfl
  | minus l r ihl ihr =>
    intro u hn h
    obtain ⟨v, w, hv, hw, h⟩ := two h
    have h1 : l.noPointer = true ∧ r.noPointer = true := by
      cases l <;> simp_all [CExpr.noPointer]
    rw [minus_kind h, ← ihl h1.1 hv, ← ihr h1.2 hw]; rfl
  | star e ih =>
    intro u hn h
    obtain ⟨v, hv, h⟩ := one h
    have h1 : e.noPointer = true := by cases e <;> first | rfl | simpa [CExpr.noPointer] using hn
    have hk := ih h1 hv
    cases v with
    | pat p => cases h; simp only [CExpr.kind, hk]; rfl
    | str s => obtain ⟨s, rfl⟩ := str_of_kind hk; cases hn
    | _ => cases h
  | plus e ih =>
    intro u hn h
    obtain ⟨v, hv, h⟩ := one h
    have h1 : e.noPointer = true := by cases e <;> first | rfl | simpa [CExpr.noPointer] using hn
    have hk := ih h1 hv
    cases v with
    | str s => obtain ⟨s, rfl⟩ := str_of_kind hk; cases hn
    | _ => first | (cases h; done) | (cases h; simp only [CExpr.kind, hk]; rfl)
  | neg e ih =>
    intro u hn h
    obtain ⟨v, hv, h⟩ := one h
    have hk := ih hn hv
    cases v <;> first | (cases h; done) | (cases h; simp only [CExpr.kind, hk]; rfl)
  | bang e ih =>
    intro u hn h
    obtain ⟨v, hv, h⟩ := one h
    have hk := ih hn hv
    cases v <;> first | (cases h; done) | (cases h; simp only [CExpr.kind, hk]; rfl)
  | tilde e ih =>
    intro u hn h
    obtain ⟨v, hv, h⟩ := one h
    have hk := ih hn hv
    cases v <;> first | (cases h; done) | (cases h; simp only [CExpr.kind, hk]; rfl)
  | discard e ih | lexeme e ih | bindDst e ih | repeated mn mx e ih | action a e ih
  | construct tys e ih =>
    intro u hn h
    obtain ⟨v, hv, h⟩ := one h
    have hk := ih hn hv
    cases v <;> first | (cases h; done) | (cases h; simp only [CExpr.kind, hk]; rfl)
  | except l r ihl ihr | list l r ihl ihr =>
    intro u hn h
    simp only [CExpr.noPointer, Bool.and_eq_true] at hn
    obtain ⟨v, w, hv, hw, h⟩ := two h
    have hk := ihl hn.1 hv
    have hk' := ihr hn.2 hw
    cases v <;> cases w <;>
      first | (cases h; done) | (cases h; simp only [CExpr.kind, hk, hk']; rfl)

end Abu
