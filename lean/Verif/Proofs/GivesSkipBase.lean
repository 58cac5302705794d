import Verif.Proofs.EndsMore
import Verif.Proofs.GivesRun
import Verif.Proofs.Skipping
import Verif.Proofs.SkipSet
import Verif.Spec.GivesSkip
/-
The values a grammar computes under a skipper: vocabulary, what is skipped, tokens.
-/
namespace Abu

/-- The same text from position `i` on as `t`, up to what is skipped. -/
def Near (S : Eater) (T : List Ch) (i : Nat) (t : List Ch) : Prop :=
  skipped S.set (T.drop i) = skipped S.set t

theorem skipped_idem (S : CharSet) (t : List Ch) : skipped S (skipped S t) = skipped S t := by
  induction t with
  | nil => rfl
  | cons c t ih =>
    unfold skipped at ih ⊢
    rw [List.dropWhile_cons]
    split
    · exact ih
    · rename_i h
      rw [List.dropWhile_cons, if_neg h]

theorem Near.of_eq {S : Eater} {T : List Ch} {i : Nat} {t : List Ch} (h : T.drop i = t) : Near S T i t := by
  rw [Near, h]

theorem near_skipped {S : Eater} {T : List Ch} {k : Nat} {t : List Ch} (h : T.drop k = skipped S.set t) :
    Near S T k t := by
  rw [Near, h, skipped_idem]

/-- A use of a parser for `p` under requirements with `c` (fails cleanly) and `rc` (directly under a
`Recur`), where the text is `t`. -/
structure Here (S : Eater) (p : Pat) (log : List LogEntry) (t : List Ch) (rc c : Bool) (T : List Ch)
    (j i : Nat) (M : Mem) : Prop where
  tidy : p.tidy true .none .none c .none .none = true
  reqs : rc = true → c = false
  exact : rc = true → T.drop i = skipped S.set t
  start : Near S T i t
  made : Near S T j t
  log : M.log = log

theorem Here.child {S : Eater} {p : Pat} {log : List LogEntry} {t : List Ch} {rc c : Bool} {T : List Ch}
    {j i : Nat} {M : Mem} (h : Here S p log t rc c T j i M) {q : Pat} {rc' c' : Bool} {k : Nat}
    (hk : T.drop k = skipped S.set t) (hq : q.tidy true .none .none c' .none .none = true)
    (hr : rc' = true → c' = false) : Here S q log t rc' c' T j k M where
  tidy := hq
  reqs := hr
  exact _ := hk
  start := near_skipped hk
  made := h.made
  log := h.log

/-- The result is what it should be, and the text left unread; `R`: what happens. -/
def ReachBy (R : Res → Nat → Mem → Prop) (S : Eater) (T : List Ch) (c : Bool) (t : List Ch) :
    Option (List Ch) → (Mem → Prop) → Prop
  | some rest, Q => ∃ i' M', R .SUCCESS i' M' ∧ Near S T i' rest ∧ Q M'
  | none, Q => ∃ i' M', R .FAILURE i' M' ∧ (c = true → Near S T i' t) ∧ Q M'

theorem ReachBy.map {R R' : Res → Nat → Mem → Prop} {S : Eater} {T : List Ch} {c c' : Bool} {t : List Ch}
    {o : Option (List Ch)} {Q Q' : Mem → Prop} (h : ReachBy R S T c t o Q)
    (hR : ∀ r i M, R r i M → R' r i M) (hc : c' = true → c = true) (hQ : ∀ M, Q M → Q' M) :
    ReachBy R' S T c' t o Q' := by
  cases o with
  | none =>
    obtain ⟨i', M', h1, h2, h3⟩ := h
    exact ⟨i', M', hR _ _ _ h1, fun h => h2 (hc h), hQ _ h3⟩
  | some rest =>
    obtain ⟨i', M', h1, h2, h3⟩ := h
    exact ⟨i', M', hR _ _ _ h1, h2, hQ _ h3⟩

/-! ### What is skipped -/

theorem exists_skips (env : Env) (S : Eater) (T : List Ch) (i : Nat) :
    ∃ k, Skips env S.K S.sc T i k ∧ T.drop k = skipped S.set (T.drop i) := by
  generalize hl : T.drop i = l
  induction l generalizing i with
  | nil =>
    refine ⟨i, .stop fun m => S.stops env T i m fun c hc => ?_, by rw [hl]; rfl⟩
    rw [(drop_nil hl).2] at hc; cases hc
  | cons c l ih =>
    obtain ⟨h1, h2, _⟩ := drop_cons hl
    by_cases hc : S.set.isValid c = true
    · obtain ⟨k, h3, h4⟩ := ih (i + 1) h2
      refine ⟨k, .more (fun m => S.eats env T i c m h1 hc) h3, ?_⟩
      rw [h4, skipped, skipped, List.dropWhile_cons, if_pos hc]
    · refine ⟨i, .stop fun m => S.stops env T i m fun c' hc' => ?_, ?_⟩
      · rw [h1] at hc'; cases hc'; simpa using hc
      · rw [hl, skipped, List.dropWhile_cons, if_neg hc]

theorem adapt_eater (S : Eater) (a cl : Bool) (raw : Prog) :
    adapt S.K a cl raw = .skip S.K (adapt .fail a cl raw) := by
  simp only [adapt, S.notFail]; rfl

section
variable {env : Env} {S : Eater} {p : Pat} {log : List LogEntry} {t : List Ch} {rc c : Bool} {T : List Ch}
  {j i : Nat} {M : Mem}

/-- The adapters around a parser. -/
theorem Here.finish {dst bnd : Ref} {a cs cl : Bool} {raw : Prog} {o Q}
    (h : Here S p log t rc c T j i M)
    (he : elabP S.K ⟨a, c, cs, rc⟩ p = adapt (Req.skipper ⟨a, c, cs, rc⟩ S.K) false cl raw)
    (hr : ∀ k, T.drop k = skipped S.set t → ReachBy (Ends env raw dst bnd T j k M) S T (c && !cl) t o Q) :
    ReachBy (Ends env (elabP S.K ⟨a, c, cs, rc⟩ p) dst bnd T j i M) S T c t o Q := by
  rw [he]
  have step : ∀ k, T.drop k = skipped S.set t →
      ReachBy (Ends env (if cl then .clean raw else raw) dst bnd T j k M) S T c t o Q := by
    intro k hk
    have h1 := hr k hk
    cases cl with
    | false => simpa using h1
    | true =>
      cases o with
      | some rest =>
        obtain ⟨i', M', h2, h3⟩ := h1
        exact ⟨i', M', h2.clean, h3⟩
      | none =>
        obtain ⟨i', M', h2, h3, h4⟩ := h1
        exact ⟨j, M', h2.clean_fail, fun _ => h.made, h4⟩
  cases rc with
  | true => exact step i (h.exact rfl)
  | false =>
    obtain ⟨k, h1, h2⟩ := exists_skips env S T i
    rw [h.start] at h2
    refine (step k h2).map (fun r i' M' h3 => ?_) id fun _ => id
    exact adapt_eater S _ _ _ ▸ Ends.skip S.stateless h1 h3

/-! ### Tokens -/

theorem elab_token_skip (a c cs : Bool) : p.token = true →
    elabP S.K ⟨a, c, cs, false⟩ p = .skip S.K (elabP .fail ⟨a, c, cs, false⟩ p) := by
  intro h
  cases p <;> first | exact adapt_eater S _ _ _ | cases h

theorem elab_token_recur : p.token = true → elabP S.K RecurChildReqs p = elabP .fail RecurChildReqs p := by
  intro h
  cases p <;> first | rfl | cases h

/-- Tidy patterns that leave no rollback point. -/
theorem Does.closed {p : Pat} {a c cs} {dst bnd : Ref} {i : Nat} {m : Mem} {r i' L m'}
    (henv : env.tidy false .none .none) (hp : p.tidy false .none .none c .none .none = true)
    (h : Does env (elabP .fail ⟨a, c, cs, false⟩ p) dst bnd T i m r i' L m') (hr : r ≠ .PARTIAL) : L = [] := by
  have hb := h.big (comp_elab p .fail hp) (env_comp henv)
  have hi := impl_top (r := ⟨a, c, cs, false⟩) (by simp) rfl hp
  have := big_peg (S := []) henv hi (by simpa using hb)
  cases this with
  | ok _ _ h => exact h.eq
  | no _ h _ => exact h.eq

theorem Does.token_core {p : Pat} {a c cs} {dst bnd : Ref} {k : Nat} {m : Mem} {r i' L m'}
    (henv : env.tidy false .none .none) (hp : p.tidy false .none .none c .none .none = true)
    (hn : p.noMark (c && p.FAILS_CLEANLY) = true)
    (h : Does env (elabP .fail ⟨a, false, cs, false⟩ p) dst bnd T k m r i' L m') (hr : r ≠ .PARTIAL) (j : Nat) :
    ∃ i2, Ends env (elabP .fail ⟨a, c, cs, false⟩ p) dst bnd T j k m r i2 m' ∧ (r = .SUCCESS → i2 = i') ∧
      (r = .FAILURE → c = true → i2 = j ∨ i2 = k) := by
  have hp0 : p.tidy false .none .none false .none .none = true := tidy_mono p (by simp) rfl rfl hp
  have hL := h.closed henv hp0 hr
  subst hL
  cases c with
  | false =>
    exact ⟨i', h.ends (noMark_marks p (by simp) hn) j, fun _ => rfl, fun _ h => by cases h⟩
  | true =>
    cases hfc : p.FAILS_CLEANLY with
    | false =>
      rw [hfc] at hn
      have h1 := h.ends (noMark_marks p (by simp) hn) j
      rw [elab_addClean hfc]
      cases r with
      | SUCCESS => exact ⟨i', h1.clean, fun _ => rfl, fun h => by cases h⟩
      | FAILURE => exact ⟨j, h1.clean_fail, (fun h => by cases h), fun _ _ => .inl rfl⟩
      | PARTIAL => exact absurd rfl hr
    | true =>
      rw [hfc] at hn
      obtain ⟨i2, L2, h2, h3⟩ := Does.cleaner (c := cs) p (tidy_plain_unskipped p hp) hr h
      have hL := h2.closed henv hp hr
      subst hL
      refine ⟨i2, h2.ends (noMark_marks p (by simp) hn) j, h3, fun e _ => .inr ?_⟩
      subst e
      exact h2.back henv hp

theorem Does.token {p : Pat} {a c cs} {dst bnd : Ref} {k : Nat} {m : Mem} {r i' L m'} (hk : p.token = true)
    (henv : env.tidy false .none .none) (hp : p.tidy true .none .none c .none .none = true)
    (h : Does env (elabP .fail ⟨a, false, cs, false⟩ p) dst bnd T k m r i' L m') (hr : r ≠ .PARTIAL) (j : Nat) :
    ∃ i2, Ends env (elabP .fail ⟨a, c, cs, false⟩ p) dst bnd T j k m r i2 m' ∧ (r = .SUCCESS → i2 = i') ∧
      (r = .FAILURE → c = true → i2 = j ∨ i2 = k) := by
  cases p with
  | lexeme q =>
    simp only [Pat.tidy, Bool.not_true, Bool.false_or, Bool.and_eq_true] at hp
    have h : Does env (.lexeme (elabP .fail ⟨a, false, cs, false⟩ q)) dst bnd T k m r i' L m' := by
      cases a <;> exact h
    obtain ⟨i2, h1, h2⟩ := h.unlexeme.token_core henv hp.2 hp.1 hr j
    refine ⟨i2, ?_, h2⟩
    have h1 := h1.lexeme
    cases a <;> cases c <;> exact h1
  | char s => exact h.token_core henv (tidy_unskipped _ hp) rfl hr j
  | eoi => exact h.token_core henv (tidy_unskipped _ hp) rfl hr j
  | pass => exact h.token_core henv (tidy_unskipped _ hp) rfl hr j
  | fail => exact h.token_core henv (tidy_unskipped _ hp) rfl hr j
  | strLit s => exact h.token_core henv (tidy_unskipped _ hp) (by simp [Pat.noMark, Pat.FAILS_CLEANLY]) hr j
  | symbol s => exact h.token_core henv (tidy_unskipped _ hp) (by simp [Pat.noMark, Pat.FAILS_CLEANLY]) hr j
  | int b mn mx =>
    refine h.token_core henv (tidy_unskipped _ hp) ?_ hr j
    cases c <;> simp [Pat.noMark, Pat.FAILS_CLEANLY]
  | uint b mn mx =>
    refine h.token_core henv (tidy_unskipped _ hp) ?_ hr j
    cases c <;> simp [Pat.noMark, Pat.FAILS_CLEANLY]
  | _ => cases hk

/-- What a token does alone, it does after what is skipped. -/
theorem Here.token {dst bnd : Ref} {a cs : Bool} {o : Option (List Ch)} {Q : Mem → Prop}
    (h : Here S p log t rc c T j i M) (hk : p.token = true) (ha : rc = true → a = false)
    (henv : env.tidy false .none .none)
    (hd : ∀ k, T.drop k = skipped S.set t → ∃ r i' L M', Does env (elabP .fail ⟨a, false, cs, false⟩ p) dst bnd T k M r i' L M' ∧
      Q M' ∧ (match o with
        | some rest => r = .SUCCESS ∧ T.drop i' = rest
        | none => r = .FAILURE)) :
    ReachBy (Ends env (elabP S.K ⟨a, c, cs, rc⟩ p) dst bnd T j i M) S T c t o Q := by
  refine h.finish (cl := false) (raw := elabP .fail ⟨a, c, cs, false⟩ p) ?_ fun k hk2 => ?_
  · cases rc with
    | false => exact (elab_token_skip a c cs hk).trans (adapt_eater S false false _).symm
    | true =>
      obtain rfl := h.reqs rfl
      obtain rfl := ha rfl
      rw [elab_consumes false false cs false true, elab_consumes false false cs false false]
      show elabP S.K RecurChildReqs p = elabP .fail ⟨false, false, false, false⟩ p
      rw [elab_token_recur hk, elab_recurChild p (tidy_unskipped p h.tidy)]
      rfl
  · obtain ⟨r, i', L, M', h1, h2, h3⟩ := hd k hk2
    simp only [Bool.not_false, Bool.and_true]
    cases o with
    | some rest =>
      obtain ⟨rfl, h3⟩ := h3
      obtain ⟨i2, e1, e2, e3⟩ := h1.token hk henv h.tidy (by simp) j
      obtain rfl := e2 rfl
      exact ⟨i2, M', e1, .of_eq h3, h2⟩
    | none =>
      subst h3
      obtain ⟨i2, e1, e2, e3⟩ := h1.token hk henv h.tidy (by simp) j
      refine ⟨i2, M', e1, fun hc => ?_, h2⟩
      rcases e3 rfl hc with rfl | rfl
      · exact h.made
      · exact near_skipped hk2

end

end Abu
