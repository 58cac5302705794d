import Verif.Spec.Laws
import Verif.Spec.Peg
import Verif.Spec.Grammar
/-
The laws of `Spec/Laws.lean` in the grammar semantics.
-/
namespace Abu

variable {env : Env} {t : List Ch}

theorem peg_seq_nil {i o} : Peg env t (.seq []) i o ↔ o = some i :=
  ⟨fun h => by cases h; rfl, fun h => h ▸ .seqNil⟩

theorem peg_seq_cons {p ps i o} : Peg env t (.seq (p :: ps)) i o ↔
    (∃ j, Peg env t p i (some j) ∧ Peg env t (.seq ps) j o) ∨ (o = none ∧ Peg env t p i none) := by
  constructor
  · intro h
    cases h with
    | seqNo h => exact .inr ⟨rfl, h⟩
    | seq h1 h2 => exact .inl ⟨_, h1, h2⟩
  · rintro (⟨j, h1, h2⟩ | ⟨rfl, h⟩)
    · exact .seq h1 h2
    · exact .seqNo h

theorem peg_alt_nil {i o} : Peg env t (.alt []) i o ↔ o = none :=
  ⟨fun h => by cases h; rfl, fun h => h ▸ .altNil⟩

theorem peg_alt_cons {p ps i o} : Peg env t (.alt (p :: ps)) i o ↔
    (∃ j, o = some j ∧ Peg env t p i (some j)) ∨ (Peg env t p i none ∧ Peg env t (.alt ps) i o) := by
  constructor
  · intro h
    cases h with
    | alt h => exact .inl ⟨_, rfl, h⟩
    | altNo h1 h2 => exact .inr ⟨h1, h2⟩
  · rintro (⟨j, rfl, h⟩ | ⟨h1, h2⟩)
    · exact .alt h
    · exact .altNo h1 h2

theorem peg_seq_append {a b} : ∀ {i o}, Peg env t (.seq (a ++ b)) i o ↔
    (∃ j, Peg env t (.seq a) i (some j) ∧ Peg env t (.seq b) j o) ∨
      (o = none ∧ Peg env t (.seq a) i none) := by
  induction a with
  | nil =>
    intro i o
    constructor
    · intro h; exact .inl ⟨i, .seqNil, h⟩
    · rintro (⟨j, h1, h2⟩ | ⟨_, h⟩)
      · cases h1; exact h2
      · cases h
  | cons p a ih =>
    intro i o
    rw [List.cons_append, peg_seq_cons]
    constructor
    · rintro (⟨j, h1, h2⟩ | ⟨rfl, h⟩)
      · rcases ih.1 h2 with ⟨k, h3, h4⟩ | ⟨rfl, h3⟩
        · exact .inl ⟨k, .seq h1 h3, h4⟩
        · exact .inr ⟨rfl, .seq h1 h3⟩
      · exact .inr ⟨rfl, .seqNo h⟩
    · rintro (⟨k, h1, h2⟩ | ⟨rfl, h⟩)
      · rcases peg_seq_cons.1 h1 with ⟨j, h3, h4⟩ | ⟨h3, _⟩
        · exact .inl ⟨j, h3, ih.2 (.inl ⟨k, h4, h2⟩)⟩
        · cases h3
      · rcases peg_seq_cons.1 h with ⟨j, h3, h4⟩ | ⟨_, h3⟩
        · exact .inl ⟨j, h3, ih.2 (.inr ⟨rfl, h4⟩)⟩
        · exact .inr ⟨rfl, h3⟩

theorem peg_alt_append {a b} : ∀ {i o}, Peg env t (.alt (a ++ b)) i o ↔
    (∃ j, o = some j ∧ Peg env t (.alt a) i (some j)) ∨
      (Peg env t (.alt a) i none ∧ Peg env t (.alt b) i o) := by
  induction a with
  | nil =>
    intro i o
    constructor
    · intro h; exact .inr ⟨.altNil, h⟩
    · rintro (⟨j, _, h⟩ | ⟨_, h⟩)
      · cases h
      · exact h
  | cons p a ih =>
    intro i o
    rw [List.cons_append, peg_alt_cons]
    constructor
    · rintro (⟨j, rfl, h⟩ | ⟨h1, h2⟩)
      · exact .inl ⟨j, rfl, .alt h⟩
      · rcases ih.1 h2 with ⟨j, rfl, h3⟩ | ⟨h3, h4⟩
        · exact .inl ⟨j, rfl, .altNo h1 h3⟩
        · exact .inr ⟨.altNo h1 h3, h4⟩
    · rintro (⟨j, rfl, h⟩ | ⟨h1, h2⟩)
      · rcases peg_alt_cons.1 h with ⟨k, h3, h4⟩ | ⟨h3, h4⟩
        · exact .inl ⟨k, h3, h4⟩
        · exact .inr ⟨h3, ih.2 (.inl ⟨j, rfl, h4⟩)⟩
      · rcases peg_alt_cons.1 h1 with ⟨k, h3, _⟩ | ⟨h3, h4⟩
        · cases h3
        · exact .inr ⟨h3, ih.2 (.inr ⟨h4, h2⟩)⟩

/-- A repetition without lower bound does not fail. -/
theorem peg_rep_zero {mx p i o} (h : Peg env t (.rep 0 mx p) i o) : o ≠ none := by
  generalize hq : Pat.rep 0 mx p = q at h
  induction h generalizing mx with
  | repStop => simp
  | repFew h => cases hq; omega
  | repLast => simp
  | repMore _ _ _ _ ih => cases hq; exact ih rfl
  | _ => cases hq

/-- The two patterns have the same outcomes. -/
def Pat.Alike (env : Env) (t : List Ch) (p q : Pat) : Prop :=
  ∀ i o, Peg env t p i o ↔ Peg env t q i o

namespace Pat.Alike
variable {p q : Pat}

theorem symm (h : p.Alike env t q) : q.Alike env t p := fun i o => (h i o).symm

theorem inSeq (l r : List Pat) (h : p.Alike env t q) :
    (Pat.seq (l ++ p :: r)).Alike env t (.seq (l ++ q :: r)) := by
  intro i o
  rw [peg_seq_append, peg_seq_append]
  simp only [peg_seq_cons, h _ _]

theorem inAlt (l r : List Pat) (h : p.Alike env t q) :
    (Pat.alt (l ++ p :: r)).Alike env t (.alt (l ++ q :: r)) := by
  intro i o
  rw [peg_alt_append, peg_alt_append]
  simp only [peg_alt_cons, h _ _]

theorem rep_imp (h : p.Alike env t q) {mn mx i o} (hp : Peg env t (.rep mn mx p) i o) :
    Peg env t (.rep mn mx q) i o := by
  generalize hr : Pat.rep mn mx p = r at hp
  induction hp generalizing mn mx with
  | repStop h1 => cases hr; exact .repStop ((h _ _).1 h1)
  | repFew h0 h1 => cases hr; exact .repFew h0 ((h _ _).1 h1)
  | repLast h1 => cases hr; exact .repLast ((h _ _).1 h1)
  | repMore h0 h1 _ _ ih => cases hr; exact .repMore h0 ((h _ _).1 h1) (ih rfl)
  | _ => cases hr

theorem inRep (mn mx : Nat) (h : p.Alike env t q) :
    (Pat.rep mn mx p).Alike env t (.rep mn mx q) :=
  fun _ _ => ⟨h.rep_imp, h.symm.rep_imp⟩

theorem inOpt (h : p.Alike env t q) : (Pat.opt p).Alike env t (.opt q) := by
  have key : ∀ {p q : Pat} {i o}, p.Alike env t q → Peg env t (.opt p) i o →
      Peg env t (.opt q) i o := by
    intro p q i o h hp
    cases hp with
    | opt h1 => exact .opt ((h _ _).1 h1)
    | optNo h1 => exact .optNo ((h _ _).1 h1)
  exact fun _ _ => ⟨key h, key h.symm⟩

theorem inNot (h : p.Alike env t q) : (Pat.not p).Alike env t (.not q) := by
  have key : ∀ {p q : Pat} {i o}, p.Alike env t q → Peg env t (.not p) i o →
      Peg env t (.not q) i o := by
    intro p q i o h hp
    cases hp with
    | not h1 => exact .not ((h _ _).1 h1)
    | notNo h1 => exact .notNo ((h _ _).1 h1)
  exact fun _ _ => ⟨key h, key h.symm⟩

theorem inExcept {n n' : Pat} (h : p.Alike env t q) (hn : n.Alike env t n') :
    (Pat.except p n).Alike env t (.except q n') := by
  have key : ∀ {p q n n' : Pat} {i o}, p.Alike env t q → n.Alike env t n' →
      Peg env t (.except p n) i o → Peg env t (.except q n') i o := by
    intro p q n n' i o h hn hp
    cases hp with
    | except h1 h2 => exact .except ((hn _ _).1 h1) ((h _ _).1 h2)
    | exceptNo h1 => exact .exceptNo ((hn _ _).1 h1)
  exact fun _ _ => ⟨key h hn, key h.symm hn.symm⟩

theorem inList {s s' : Pat} (h : p.Alike env t q) (hs : s.Alike env t s') :
    (Pat.list p s).Alike env t (.list q s') := by
  have key : ∀ {p q s s' : Pat} {i o}, p.Alike env t q → s.Alike env t s' →
      Peg env t (.list p s) i o → Peg env t (.list q s') i o := by
    intro p q s s' i o h hs hp
    have hr : (Pat.seq [s, p]).Alike env t (.seq [s', q]) := by
      intro i o
      exact (inSeq [] [p] hs i o).trans (inSeq [s'] [] h i o)
    cases hp with
    | listNil h1 => exact .listNil ((h _ _).1 h1)
    | list h1 h2 => exact .list ((h _ _).1 h1) (hr.rep_imp h2)
  exact fun _ _ => ⟨key h hs, key h.symm hs.symm⟩

end Pat.Alike

theorem peg_plus {p i o} : Peg env t (.rep 1 0 p) i o ↔
    (∃ j, Peg env t p i (some j) ∧ Peg env t (.rep 0 0 p) j o) ∨ (o = none ∧ Peg env t p i none) := by
  constructor
  · intro h
    cases h with
    | repFew _ h => exact .inr ⟨rfl, h⟩
    | repMore _ h1 h2 => exact .inl ⟨_, h1, h2⟩
  · rintro (⟨j, h1, h2⟩ | ⟨rfl, h⟩)
    · exact .repMore (by decide) h1 h2
    · exact .repFew (by decide) h

/-- Where a repetition stops its operand does not match. -/
theorem peg_star_end {p i j} (h : Peg env t (.rep 0 0 p) i (some j)) : Peg env t p j none := by
  generalize hq : Pat.rep 0 0 p = q at h
  generalize ho : some j = o at h
  induction h with
  | repStop h => cases hq; cases ho; exact h
  | repFew h => cases hq; omega
  | repLast => cases hq
  | repMore _ _ _ _ ih => cases hq; exact ih rfl ho
  | _ => cases hq

theorem peg_starPlus_star {p i o} (h : Peg env t (.rep 0 0 (.rep 1 0 p)) i o) :
    Peg env t (.rep 0 0 p) i o := by
  cases h with
  | repStop h =>
    rcases peg_plus.1 h with ⟨j, _, h2⟩ | ⟨_, h2⟩
    · exact absurd rfl (peg_rep_zero h2)
    · exact .repStop h2
  | repFew h => omega
  | repMore _ h1 h2 =>
    rcases peg_plus.1 h1 with ⟨k, h3, h4⟩ | ⟨h3, _⟩
    · have h5 := peg_star_end h4
      have h6 : Peg env t (.rep 1 0 p) _ none := .repFew (by decide) h5
      cases h2 with
      | repStop => exact .repMore (by decide) h3 h4
      | repFew h => omega
      | repMore _ h7 => cases h6.unique h7
    · cases h3

theorem peg_star_starPlus {p i o} (h : Peg env t (.rep 0 0 p) i o) :
    Peg env t (.rep 0 0 (.rep 1 0 p)) i o := by
  cases h with
  | repStop h => exact .repStop (.repFew (by decide) h)
  | repFew h => omega
  | repMore h0 h1 h2 =>
    cases o with
    | none => exact absurd rfl (peg_rep_zero h2)
    | some k =>
      exact .repMore (by decide) (.repMore (by decide) h1 h2)
        (.repStop (.repFew (by decide) (peg_star_end h2)))

theorem prefix_append_drop {a b : List Ch} {i : Nat} :
    a ++ b <+: t.drop i ↔ a <+: t.drop i ∧ b <+: t.drop (i + a.length) := by
  rw [← List.drop_drop]
  constructor
  · rintro ⟨s, h⟩
    refine ⟨⟨b ++ s, by rw [← h, List.append_assoc]⟩, ⟨s, ?_⟩⟩
    rw [← h, List.append_assoc, List.drop_left]
  · rintro ⟨⟨s, h⟩, ⟨s', h'⟩⟩
    rw [← h, List.drop_left] at h'
    exact ⟨s', by rw [← h, ← h', List.append_assoc]⟩

theorem Pat.Equiv.alike {p q : Pat} (h : p.Equiv q) : p.Alike env t q := by
  induction h with
  | refl => exact fun _ _ => .rfl
  | symm _ ih => exact ih.symm
  | trans _ _ ih1 ih2 => exact fun i o => (ih1 i o).trans (ih2 i o)
  | inSeq l r _ ih => exact ih.inSeq l r
  | inAlt l r _ ih => exact ih.inAlt l r
  | inRep mn mx _ ih => exact ih.inRep mn mx
  | inOpt _ ih => exact ih.inOpt
  | inNot _ ih => exact ih.inNot
  | inExceptOp n _ ih => exact ih.inExcept fun _ _ => .rfl
  | inExceptNeg o _ ih => exact Pat.Alike.inExcept (fun _ _ => .rfl) ih
  | inListOp n _ ih => exact ih.inList fun _ _ => .rfl
  | inListSep o _ ih => exact Pat.Alike.inList (fun _ _ => .rfl) ih
  | seqFlat l ps r =>
    intro i o
    rw [List.append_assoc, peg_seq_append, peg_seq_append (a := l)]
    simp only [peg_seq_cons, peg_seq_append (a := ps)]
  | seqOne p =>
    intro i o
    rw [peg_seq_cons]
    simp only [peg_seq_nil]
    constructor
    · rintro (⟨j, h, rfl⟩ | ⟨rfl, h⟩) <;> exact h
    · intro h
      cases o with
      | none => exact .inr ⟨rfl, h⟩
      | some j => exact .inl ⟨j, h, rfl⟩
  | seqNil =>
    intro i o
    exact ⟨fun h => by cases h; exact .pass, fun h => by cases h; exact .seqNil⟩
  | altFlat l ps r =>
    intro i o
    rw [List.append_assoc, peg_alt_append, peg_alt_append (a := l)]
    simp only [peg_alt_cons, peg_alt_append (a := ps)]
  | altOne p =>
    intro i o
    rw [peg_alt_cons]
    simp only [peg_alt_nil]
    constructor
    · rintro (⟨j, rfl, h⟩ | ⟨h, rfl⟩) <;> exact h
    · intro h
      cases o with
      | none => exact .inr ⟨h, rfl⟩
      | some j => exact .inl ⟨j, rfl, h⟩
  | altNil =>
    intro i o
    exact ⟨fun h => by cases h; exact .fail, fun h => by cases h; exact .altNil⟩
  | seqFail ps =>
    intro i o
    constructor
    · intro h
      cases h with
      | seqNo h => exact h
      | seq h => cases h
    · intro h; cases h; exact .seqNo .fail
  | altAgain l m r p =>
    intro i o
    have e1 : l ++ p :: m ++ p :: r = (l ++ [p]) ++ (m ++ (p :: r)) := by simp
    have e2 : l ++ p :: m ++ r = (l ++ [p]) ++ (m ++ r) := by simp
    rw [e1, e2, peg_alt_append, peg_alt_append (a := l ++ [p])]
    have hl : Peg env t (.alt (l ++ [p])) i none → Peg env t p i none := by
      intro h
      rcases peg_alt_append.1 h with ⟨j, h1, _⟩ | ⟨_, h2⟩
      · cases h1
      · rcases peg_alt_cons.1 h2 with ⟨j, h1, _⟩ | ⟨h1, _⟩
        · cases h1
        · exact h1
    refine or_congr .rfl (and_congr_right fun h => ?_)
    rw [peg_alt_append, peg_alt_append (a := m)]
    refine or_congr .rfl (and_congr_right fun _ => ?_)
    rw [peg_alt_cons]
    constructor
    · rintro (⟨j, rfl, h1⟩ | ⟨_, h1⟩)
      · cases (hl h).unique h1
      · exact h1
    · intro h1; exact .inr ⟨hl h, h1⟩
  | factor p a b =>
    intro i o
    constructor
    · intro h
      rcases peg_alt_cons.1 h with ⟨j, rfl, h1⟩ | ⟨h1, h2⟩
      · rcases peg_seq_cons.1 h1 with ⟨k, h3, h4⟩ | ⟨h3, _⟩
        · exact .seq h3 (.seq (.alt h4) .seqNil)
        · cases h3
      · rcases peg_alt_cons.1 h2 with ⟨j, rfl, h5⟩ | ⟨h5, h6⟩
        · rcases peg_seq_cons.1 h5 with ⟨k, h3, h4⟩ | ⟨h3, _⟩
          · rcases peg_seq_cons.1 h1 with ⟨k', h7, h8⟩ | ⟨_, h7⟩
            · cases h3.unique h7
              exact .seq h3 (.seq (.altNo h8 (.alt h4)) .seqNil)
            · cases h3.unique h7
          · cases h3
        · cases h6
          rcases peg_seq_cons.1 h5 with ⟨k, h3, h4⟩ | ⟨_, h3⟩
          · rcases peg_seq_cons.1 h1 with ⟨k', h7, h8⟩ | ⟨_, h7⟩
            · cases h3.unique h7
              exact .seq h3 (.seqNo (.altNo h8 (.altNo h4 .altNil)))
            · cases h3.unique h7
          · exact .seqNo h3
    · intro h
      rcases peg_seq_cons.1 h with ⟨k, h1, h2⟩ | ⟨rfl, h1⟩
      · rcases peg_seq_cons.1 h2 with ⟨j, h3, h4⟩ | ⟨rfl, h3⟩
        · cases h4
          rcases peg_alt_cons.1 h3 with ⟨j', h5, h6⟩ | ⟨h5, h6⟩
          · cases h5; exact .alt (.seq h1 h6)
          · rcases peg_alt_cons.1 h6 with ⟨j', h7, h8⟩ | ⟨_, h8⟩
            · cases h7; exact .altNo (.seq h1 h5) (.alt (.seq h1 h8))
            · cases h8
        · rcases peg_alt_cons.1 h3 with ⟨j', h5, h6⟩ | ⟨h5, h6⟩
          · cases h5
          · rcases peg_alt_cons.1 h6 with ⟨j', h7, h8⟩ | ⟨h8, _⟩
            · cases h7
            · exact .altNo (.seq h1 h5) (.altNo (.seq h1 h8) .altNil)
      · exact .altNo (.seqNo h1) (.altNo (.seqNo h1) .altNil)
  | opt p =>
    intro i o
    constructor
    · intro h
      cases h with
      | opt h => exact .alt h
      | optNo h => exact .altNo h (.alt .pass)
    · intro h
      cases h with
      | alt h => exact .opt h
      | altNo h1 h2 =>
        cases h2 with
        | alt h2 => cases h2; exact .optNo h1
        | altNo h2 => cases h2
  | optRep p =>
    intro i o
    constructor
    · intro h
      cases h with
      | opt h => exact .repLast h
      | optNo h => exact .repStop h
    · intro h
      cases h with
      | repStop h => exact .optNo h
      | repFew h => omega
      | repLast h => exact .opt h
      | repMore h => exact absurd rfl h
  | except p q =>
    intro i o
    constructor
    · intro h
      cases h with
      | except h1 h2 =>
        refine .seq (.not h1) ?_
        cases o with
        | none => exact .seqNo h2
        | some j => exact .seq h2 .seqNil
      | exceptNo h => exact .seqNo (.notNo h)
    · intro h
      cases h with
      | seqNo h => cases h with | notNo h => exact .exceptNo h
      | seq h1 h2 =>
        cases h1 with
        | not h1 =>
          cases h2 with
          | seqNo h2 => exact .except h1 h2
          | seq h2 h3 => cases h3; exact .except h1 h2
  | list p s =>
    intro i o
    constructor
    · intro h
      cases h with
      | listNil h => exact .optNo (.seqNo h)
      | list h1 h2 =>
        cases o with
        | none => exact absurd rfl (peg_rep_zero h2)
        | some j => exact .opt (.seq h1 (.seq h2 .seqNil))
    · intro h
      cases h with
      | opt h =>
        cases h with
        | seq h1 h2 => cases h2 with | seq h2 h3 => cases h3; exact .list h1 h2
      | optNo h =>
        cases h with
        | seqNo h => exact .listNil h
        | seq h1 h2 =>
          cases h2 with
          | seqNo h2 => exact absurd rfl (peg_rep_zero h2)
          | seq _ h3 => cases h3
  | plus p =>
    intro i o
    rw [peg_plus]
    constructor
    · rintro (⟨j, h1, h2⟩ | ⟨rfl, h⟩)
      · cases o with
        | none => exact absurd rfl (peg_rep_zero h2)
        | some k => exact .seq h1 (.seq h2 .seqNil)
      · exact .seqNo h
    · intro h
      cases h with
      | seqNo h => exact .inr ⟨rfl, h⟩
      | seq h1 h2 =>
        cases h2 with
        | seqNo h2 => exact absurd rfl (peg_rep_zero h2)
        | seq h2 h3 => cases h3; exact .inl ⟨_, h1, h2⟩
  | star p =>
    intro i o
    constructor
    · intro h
      cases h with
      | repStop h => exact .optNo (.repFew (by decide) h)
      | repFew h => omega
      | repMore _ h1 h2 =>
        cases o with
        | none => exact absurd rfl (peg_rep_zero h2)
        | some k => exact .opt (.repMore (by decide) h1 h2)
    · intro h
      cases h with
      | opt h =>
        rcases peg_plus.1 h with ⟨j, h1, h2⟩ | ⟨h1, _⟩
        · exact .repMore (by decide) h1 h2
        · cases h1
      | optNo h =>
        rcases peg_plus.1 h with ⟨j, h1, h2⟩ | ⟨_, h1⟩
        · exact absurd rfl (peg_rep_zero h2)
        · exact .repStop h1
  | starPlus p => exact fun i o => ⟨peg_starPlus_star, peg_star_starPlus⟩
  | atLeast n p =>
    intro i o
    constructor
    · intro h
      cases h with
      | repFew _ h => exact .seqNo h
      | repMore _ h1 h2 =>
        refine .seq h1 ?_
        cases o with
        | none => exact .seqNo h2
        | some j => exact .seq h2 .seqNil
    · intro h
      cases h with
      | seqNo h => exact .repFew (by omega) h
      | seq h1 h2 =>
        cases h2 with
        | seqNo h2 => exact .repMore (by decide) h1 h2
        | seq h2 h3 => cases h3; exact .repMore (by decide) h1 h2
  | once p =>
    intro i o
    constructor
    · intro h
      cases h with
      | repFew _ h => exact h
      | repLast h => exact h
      | repMore h => exact absurd rfl h
    · intro h
      cases o with
      | none => exact .repFew (by decide) h
      | some j => exact .repLast h
  | exactly n p =>
    intro i o
    constructor
    · intro h
      cases h with
      | repFew _ h => exact .seqNo h
      | repMore _ h1 h2 =>
        refine .seq h1 ?_
        cases o with
        | none => exact .seqNo h2
        | some j => exact .seq h2 .seqNil
    · intro h
      cases h with
      | seqNo h => exact .repFew (by omega) h
      | seq h1 h2 =>
        cases h2 with
        | seqNo h2 => exact .repMore (by omega) h1 h2
        | seq h2 h3 => cases h3; exact .repMore (by omega) h1 h2
  | notNotNot p =>
    intro i o
    constructor
    · intro h
      cases h with
      | not h => cases h with | notNo h => cases h with | not h => exact .not h
      | notNo h => cases h with | not h => cases h with | notNo h => exact .notNo h
    · intro h
      cases h with
      | not h => exact .not (.notNo (.not h))
      | notNo h => exact .notNo (.not (.notNo h))
  | neither p q =>
    intro i o
    constructor
    · intro h
      cases h with
      | seqNo h => cases h with | notNo h => exact .notNo (.alt h)
      | seq h1 h2 =>
        cases h1 with
        | not h1 =>
          cases h2 with
          | seqNo h2 => cases h2 with | notNo h2 => exact .notNo (.altNo h1 (.alt h2))
          | seq h2 h3 => cases h3; cases h2 with | not h2 => exact .not (.altNo h1 (.altNo h2 .altNil))
    · intro h
      cases h with
      | not h =>
        cases h with
        | altNo h1 h2 => cases h2 with | altNo h2 _ => exact .seq (.not h1) (.seq (.not h2) .seqNil)
      | notNo h =>
        cases h with
        | alt h => exact .seqNo (.notNo h)
        | altNo h1 h2 =>
          cases h2 with
          | alt h2 => exact .seq (.not h1) (.seqNo (.notNo h2))
          | altNo _ h3 => cases h3
  | orChars s u =>
    intro i o
    constructor
    · intro h
      cases h with
      | alt h => cases h with | char h1 h2 => exact .char h1 (by simp [CharSet.isValid, h2])
      | altNo h1 h2 =>
        cases h1 with
        | charNo h1 =>
          cases h2 with
          | alt h2 => cases h2 with | char h2 h3 => exact .char h2 (by simp [CharSet.isValid, h3])
          | altNo h2 h3 =>
            cases h3
            cases h2 with
            | charNo h2 =>
              exact .charNo fun c hc => by simp [CharSet.isValid, h1 c hc, h2 c hc]
    · intro h
      cases h with
      | char h1 h2 =>
        simp only [CharSet.isValid, Bool.or_eq_true] at h2
        cases hs : s.isValid _ with
        | true => exact .alt (.char h1 hs)
        | false =>
          exact .altNo (.charNo fun c hc => by rw [h1] at hc; cases hc; exact hs)
            (.alt (.char h1 (h2.resolve_left (by simp [hs]))))
      | charNo h =>
        refine .altNo (.charNo fun c hc => ?_) (.altNo (.charNo fun c hc => ?_) .altNil)
        · have := h c hc; simp only [CharSet.isValid, Bool.or_eq_false_iff] at this; exact this.1
        · have := h c hc; simp only [CharSet.isValid, Bool.or_eq_false_iff] at this; exact this.2
  | exceptChars s u =>
    intro i o
    constructor
    · intro h
      cases h with
      | except h1 h2 =>
        cases h1 with
        | charNo h1 =>
          cases h2 with
          | char h2 h3 => exact .char h2 (by simp [CharSet.isValid, h3, h1 _ h2])
          | charNo h2 => exact .charNo fun c hc => by simp [CharSet.isValid, h2 c hc]
      | exceptNo h =>
        cases h with
        | char h1 h2 =>
          exact .charNo fun c hc => by rw [h1] at hc; cases hc; simp [CharSet.isValid, h2]
    · intro h
      cases h with
      | char h1 h2 =>
        simp only [CharSet.isValid, Bool.not_or, Bool.not_not, Bool.and_eq_true,
          Bool.not_eq_true'] at h2
        exact .except (.charNo fun c hc => by rw [h1] at hc; cases hc; exact h2.2) (.char h1 h2.1)
      | charNo h =>
        cases hc : t[i]? with
        | none =>
          exact .except (.charNo fun c h' => by rw [hc] at h'; cases h')
            (.charNo fun c h' => by rw [hc] at h'; cases h')
        | some c =>
          have h' := h c hc
          cases hu : u.isValid c with
          | true => exact .exceptNo (.char hc hu)
          | false =>
            simp only [CharSet.isValid, hu, Bool.or_false, Bool.not_not] at h'
            exact .except (.charNo fun c' h'' => by rw [hc] at h''; cases h''; exact hu)
              (.charNo fun c' h'' => by rw [hc] at h''; cases h''; exact h')
  | text a b =>
    intro i o
    constructor
    · intro h
      cases h with
      | strLit h =>
        rw [prefix_append_drop] at h
        rw [List.length_append, ← Nat.add_assoc]
        exact .seq (.strLit h.1) (.seq (.strLit h.2) .seqNil)
      | strLitNo h =>
        rw [prefix_append_drop] at h
        by_cases ha : a <+: t.drop i
        · exact .seq (.strLit ha) (.seqNo (.strLitNo fun hb => h ⟨ha, hb⟩))
        · exact .seqNo (.strLitNo ha)
    · intro h
      cases h with
      | seqNo h => cases h with | strLitNo h => exact .strLitNo fun h' => h (prefix_append_drop.1 h').1
      | seq h1 h2 =>
        cases h1 with
        | strLit h1 =>
          cases h2 with
          | seqNo h2 =>
            cases h2 with | strLitNo h2 => exact .strLitNo fun h' => h2 (prefix_append_drop.1 h').2
          | seq h2 h3 =>
            cases h3
            cases h2 with
            | strLit h2 =>
              have := Peg.strLit (env := env) (t := t) (prefix_append_drop.2 ⟨h1, h2⟩)
              rwa [List.length_append, ← Nat.add_assoc] at this
  | letter c =>
    intro i o
    have hp : [c] <+: t.drop i ↔ t[i]? = some c := by
      rw [List.cons_prefix_iff]
      constructor
      · rintro ⟨l, h, _⟩
        rw [← List.head?_drop, h]; rfl
      · intro h
        rw [← List.head?_drop] at h
        cases hd : t.drop i with
        | nil => rw [hd] at h; cases h
        | cons d l => rw [hd] at h; cases h; exact ⟨l, rfl, List.nil_prefix⟩
    constructor
    · intro h
      cases h with
      | strLit h => exact .char (hp.1 h) (by simp [CharSet.isValid])
      | strLitNo h =>
        refine .charNo fun d hd => ?_
        simp only [CharSet.isValid, beq_eq_false_iff_ne]
        intro hdc
        exact h (hp.2 (hdc ▸ hd))
    · intro h
      cases h with
      | char h1 h2 =>
        simp only [CharSet.isValid, beq_iff_eq] at h2
        subst h2
        exact Peg.strLit (hp.2 h1)
      | charNo h =>
        refine .strLitNo fun h' => ?_
        have := h c (hp.1 h')
        simp [CharSet.isValid] at this
  | discard p => exact fun i o => ⟨fun h => by cases h; assumption, .discard⟩
  | lexeme p => exact fun i o => ⟨fun h => by cases h; assumption, .lexeme⟩
  | bindDst p => exact fun i o => ⟨fun h => by cases h; assumption, .bindDst⟩
  | construct tys p => exact fun i o => ⟨fun h => by cases h; assumption, .construct⟩
  | action a p => exact fun i o => ⟨fun h => by cases h; assumption, .action⟩

/-- Definitions with the same outcomes may be exchanged. -/
theorem Peg.change_env {env' : Env} {p i o}
    (he : ∀ id q', env' id = some q' → ∃ q, env id = some q ∧ q'.Alike env t q)
    (h : Peg env' t p i o) : Peg env t p i o := by
  induction h with
  | recur h1 _ ih =>
    obtain ⟨q, h2, h3⟩ := he _ _ h1
    exact .recur h2 ((h3 _ _).1 ih)
  | intNo h1 h2 => exact .intNo h1 h2
  | int h1 h2 => exact .int h1 h2
  | repMore h0 _ _ ih1 ih2 => exact .repMore h0 ih1 ih2
  | seq _ _ ih1 ih2 => exact .seq ih1 ih2
  | altNo _ _ ih1 ih2 => exact .altNo ih1 ih2
  | except _ _ ih1 ih2 => exact .except ih1 ih2
  | list _ _ ih1 ih2 => exact .list ih1 ih2
  | symbol h1 h2 => exact .symbol h1 h2
  | optNo _ ih => exact .optNo ih
  | exceptNo _ ih => exact .exceptNo ih
  | _ => constructor <;> assumption

theorem Env.Equiv.symm {env env' : Env} (h : env.Equiv env') : env'.Equiv env := by
  intro id
  rcases h id with ⟨h1, h2⟩ | ⟨p, q, h1, h2, h3⟩
  · exact .inl ⟨h2, h1⟩
  · exact .inr ⟨q, p, h2, h1, h3.symm⟩

theorem Peg.equiv {env env' : Env} {p q i o} (he : env.Equiv env') (hp : p.Equiv q)
    (h : Peg env t p i o) : Peg env' t q i o := by
  refine (hp.alike _ _).1 (Peg.change_env (env' := env) ?_ h)
  intro id q' hq
  rcases he id with ⟨h1, _⟩ | ⟨a, b, h1, h2, h3⟩
  · rw [h1] at hq; cases hq
  · rw [h1] at hq; cases hq
    exact ⟨b, h2, h3.alike⟩

theorem PegRest.equiv {env env' : Env} {p q o} (he : env.Equiv env') (hp : p.Equiv q)
    (h : PegRest env p t o) : PegRest env' q t o := by
  cases o with
  | none => exact Peg.equiv he hp h
  | some rest =>
    obtain ⟨j, h, rfl⟩ := h
    exact ⟨j, h.equiv he hp, rfl⟩

end Abu
