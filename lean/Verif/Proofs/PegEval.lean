import Verif.Spec.Grammar
/-
The grammar semantics, computed (for the examples). Symbol tables are left out.
-/
namespace Abu

/-- Continue with the outcome of a sub-pattern. -/
def pegThen (x no : Option (Option Nat)) (yes : Nat → Option (Option Nat)) : Option (Option Nat) :=
  match x with
  | none => none
  | some none => no
  | some (some j) => yes j

theorem pegThen_some {x no yes o} (h : pegThen x no yes = some o) :
    (x = some none ∧ no = some o) ∨ ∃ j, x = some (some j) ∧ yes j = some o := by
  cases x with
  | none => cases h
  | some x =>
    cases x with
    | none => exact .inl ⟨rfl, h⟩
    | some j => exact .inr ⟨j, rfl, h⟩

/-- Evaluation with bounded recursion; `none`: bound reached, or a symbol table. -/
def pegEval (env : Env) (t : List Ch) : Nat → Pat → Nat → Option (Option Nat)
  | 0, _, _ => none
  | n + 1, p, i =>
    match p with
    | .char s =>
      match t[i]? with
      | none => some none
      | some c => some (if s.isValid c then some (i + 1) else none)
    | .charSymbol _ => none
    | .strLit s => some (if s.isPrefixOf (t.drop i) then some (i + s.length) else none)
    | .symbol _ => none
    | .uint b mn mx =>
      some (if mn ≤ digitRun b mx (t.drop i) then some (i + digitRun b mx (t.drop i)) else none)
    | .int b mn mx =>
      let j := i + signLen (t.drop i)
      some (if mn ≤ digitRun b mx (t.drop j) then some (j + digitRun b mx (t.drop j)) else none)
    | .eoi => some (if t.length ≤ i then some i else none)
    | .pass => some (some i)
    | .fail => some none
    | .seq [] => some (some i)
    | .seq (q :: qs) => pegThen (pegEval env t n q i) (some none) fun j => pegEval env t n (.seq qs) j
    | .alt [] => some none
    | .alt (q :: qs) => pegThen (pegEval env t n q i) (pegEval env t n (.alt qs) i) fun j => some (some j)
    | .rep mn mx q =>
      pegThen (pegEval env t n q i) (some (if mn = 0 then some i else none)) fun j =>
        if mx = 1 then some (some j) else pegEval env t n (.rep (mn - 1) (mx - 1) q) j
    | .opt q => pegThen (pegEval env t n q i) (some (some i)) fun j => some (some j)
    | .not q => pegThen (pegEval env t n q i) (some (some i)) fun _ => some none
    | .discard q => pegEval env t n q i
    | .lexeme q => pegEval env t n q i
    | .bindDst q => pegEval env t n q i
    | .construct _ q => pegEval env t n q i
    | .action _ q => pegEval env t n q i
    | .except op neg => pegThen (pegEval env t n neg i) (pegEval env t n op i) fun _ => some none
    | .list op sep =>
      pegThen (pegEval env t n op i) (some (some i)) fun j => pegEval env t n (.rep 0 0 (.seq [sep, op])) j
    | .withSkipper _ _ => none
    | .recur id _ => (env id).bind fun q => pegEval env t n q i

theorem peg_of_eval {env : Env} {t : List Ch} : ∀ {n p i o}, pegEval env t n p i = some o →
    Peg env t p i o := by
  intro n
  induction n with
  | zero => intro p i o h; cases h
  | succ n ih =>
    intro p i o h
    unfold pegEval at h
    cases p with
    | char s =>
      simp only at h
      split at h
      · next hc => cases h; exact .charNo (by simp [hc])
      · next c hc =>
        cases h
        split
        · next hv => exact .char hc hv
        · next hv => exact .charNo (by intro c' hc'; rw [hc] at hc'; cases hc'; simpa using hv)
    | charSymbol => cases h
    | strLit s =>
      simp only [Option.some.injEq] at h
      subst h
      split
      · next hp => exact .strLit (List.isPrefixOf_iff_prefix.1 hp)
      · next hp => exact .strLitNo fun hp' => hp (List.isPrefixOf_iff_prefix.2 hp')
    | symbol => cases h
    | uint b mn mx =>
      simp only [Option.some.injEq] at h
      subst h
      split
      · next hp => exact .uint hp
      · next hp => exact .uintNo (by omega)
    | int b mn mx =>
      simp only [Option.some.injEq] at h
      subst h
      split
      · next hp => exact .int rfl hp
      · next hp => exact .intNo rfl (by omega)
    | eoi =>
      simp only [Option.some.injEq] at h
      subst h
      split
      · next hp => exact .eoi hp
      · next hp => exact .eoiNo (by omega)
    | pass => cases h; exact .pass
    | fail => cases h; exact .fail
    | seq ps =>
      cases ps with
      | nil => cases h; exact .seqNil
      | cons q qs =>
        rcases pegThen_some h with ⟨h1, h2⟩ | ⟨j, h1, h2⟩
        · cases h2; exact .seqNo (ih h1)
        · exact .seq (ih h1) (ih h2)
    | alt ps =>
      cases ps with
      | nil => cases h; exact .altNil
      | cons q qs =>
        rcases pegThen_some h with ⟨h1, h2⟩ | ⟨j, h1, h2⟩
        · exact .altNo (ih h1) (ih h2)
        · cases h2; exact .alt (ih h1)
    | rep mn mx q =>
      rcases pegThen_some h with ⟨h1, h2⟩ | ⟨j, h1, h2⟩
      · cases h2
        split
        · next hz => subst hz; exact .repStop (ih h1)
        · next hz => exact .repFew (by omega) (ih h1)
      · split at h2
        · next hz => subst hz; cases h2; exact .repLast (ih h1)
        · next hz => exact .repMore hz (ih h1) (ih h2)
    | opt q =>
      rcases pegThen_some h with ⟨h1, h2⟩ | ⟨j, h1, h2⟩
      · cases h2; exact .optNo (ih h1)
      · cases h2; exact .opt (ih h1)
    | not q =>
      rcases pegThen_some h with ⟨h1, h2⟩ | ⟨j, h1, h2⟩
      · cases h2; exact .not (ih h1)
      · cases h2; exact .notNo (ih h1)
    | discard q => exact .discard (ih h)
    | lexeme q => exact .lexeme (ih h)
    | bindDst q => exact .bindDst (ih h)
    | construct tys q => exact .construct (ih h)
    | action a q => exact .action (ih h)
    | except op neg =>
      rcases pegThen_some h with ⟨h1, h2⟩ | ⟨j, h1, h2⟩
      · exact .except (ih h1) (ih h2)
      · cases h2; exact .exceptNo (ih h1)
    | list op sep =>
      rcases pegThen_some h with ⟨h1, h2⟩ | ⟨j, h1, h2⟩
      · cases h2; exact .listNil (ih h1)
      · exact .list (ih h1) (ih h2)
    | withSkipper => cases h
    | recur id k =>
      cases hid : env id with
      | none => simp only [hid] at h; cases h
      | some q => simp only [hid] at h; exact .recur hid (ih h)

end Abu
