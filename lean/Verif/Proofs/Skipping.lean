import Verif.Proofs.Bridge
import Verif.Proofs.Spaced
import Verif.Proofs.Terminates
import Verif.Spec.UpTo
/-
Parsers under a skipper.
-/
namespace Abu

mutual
theorem tidy_unskipped : ∀ (p : Pat) {els elf : Stale} {c : Bool} {ls lf : Stale},
    p.tidy true els elf c ls lf = true → p.tidy false els elf c ls lf = true
  | .charSymbol _, els, elf, c, ls, lf => id
  | .int .., els, elf, c, ls, lf => id
  | .uint .., els, elf, c, ls, lf => id
  | .seq ps, els, elf, c, ls, lf => band_mono' id (tidySeq_unskipped ps)
  | .alt ps, els, elf, c, ls, lf => band_mono' id (tidyAlt_unskipped ps)
  | .rep _ _ p, els, elf, c, ls, lf => tidy_unskipped p
  | .opt p, els, elf, c, ls, lf => band_mono' id (tidy_unskipped p)
  | .not p, els, elf, c, ls, lf => tidy_unskipped p
  | .discard p, els, elf, c, ls, lf => tidy_unskipped p
  | .lexeme p, els, elf, c, ls, lf => band_mono' (fun _ => rfl) id
  | .bindDst p, els, elf, c, ls, lf => tidy_unskipped p
  | .construct _ p, els, elf, c, ls, lf => tidy_unskipped p
  | .action _ p, els, elf, c, ls, lf => tidy_unskipped p
  | .except op neg, els, elf, c, ls, lf => band_mono' (tidy_unskipped op) (tidy_unskipped neg)
  | .list op sep, els, elf, c, ls, lf => band_mono' (tidy_unskipped op) (tidy_unskipped sep)
  | .withSkipper .., els, elf, c, ls, lf => id
  | .recur .., els, elf, c, ls, lf => id
  | .char _, els, elf, c, ls, lf => id
  | .strLit _, els, elf, c, ls, lf => id
  | .symbol _, els, elf, c, ls, lf => id
  | .eoi, els, elf, c, ls, lf => id
  | .pass, els, elf, c, ls, lf => id
  | .fail, els, elf, c, ls, lf => id
theorem tidySeq_unskipped : ∀ (ps : List Pat) {els elf ls lf : Stale},
    Pat.tidySeq true els elf ls lf ps = true → Pat.tidySeq false els elf ls lf ps = true
  | [], els, elf, ls, lf => id
  | p :: ps, els, elf, ls, lf => band_mono' (tidy_unskipped p) (tidySeq_unskipped ps)
theorem tidyAlt_unskipped : ∀ (ps : List Pat) {els elf ls lf : Stale},
    Pat.tidyAlt true els elf ls lf ps = true → Pat.tidyAlt false els elf ls lf ps = true
  | [], els, elf, ls, lf => id
  | p :: ps, els, elf, ls, lf => band_mono' (tidy_unskipped p) (tidyAlt_unskipped ps)
end

theorem Env.tidy.unskipped {env : Env} {els elf} (h : env.tidy true els elf) : env.tidy false els elf :=
  fun id q hq => tidy_unskipped q (h id q hq)

/-- The parser of the skipper. -/
def skipParser (s : Pat) : Prog := elabP .fail SkipReqs s

theorem skipParser_isFail {s : Pat} (h : s ≠ .fail) : (skipParser s).isFail = false := by
  have ha : ∀ {at' cl} {raw : Prog}, raw.isFail = false → (adapt .fail at' cl raw).isFail = false := by
    intro at' cl raw hr
    cases at' <;> cases cl <;> first | exact hr | rfl
  cases s <;> first | exact absurd rfl h | (rw [skipParser, elabP]; exact ha rfl)

theorem skipParser_impl {K useSk els elf} {s : Pat} (hKf : K.isFail = false)
    (hs : s.tidy false els elf true .none .none = true) :
    Impl K useSk els elf false false true .none .none (skipParser s) s := by
  have h : Impl K useSk els elf false true true .none .none (skipParser s) s :=
    impl_elab (K := K) hKf s (sk := false) (r := SkipReqs) (by simp) (fun h => by cases h) rfl hs
  cases h with | plain h => exact h

section
variable {env : Env} {t : List Ch} {els elf : Stale} {s : Pat} {N : Nat → Nat}
variable (henv : env.tidy true els elf) (hs : s.tidy false els elf true .none .none = true)
variable (hm : s.noMark true = true)
variable (hN : ∀ i, Peg env t (.rep 0 0 s) i (some (N i)))
include henv hs hm hN

theorem skipTo : ∀ i, SkipTo env t s i (N i) := by
  have key : ∀ {P i o}, Peg env t P i o → P = .rep 0 0 s → ∀ k, o = some k → SkipTo env t s i k := by
    intro P i o h
    induction h with
    | repStop h => intro e k hk; cases e; cases hk; exact .stop h.toN
    | repMore _ h _ _ ih => intro e k hk; cases e; exact .step h.toN (ih rfl k hk)
    | repFew h => intro e; cases e; cases h
    | _ => intro e; cases e
  exact fun i => key (hN i) rfl _ rfl

theorem skipper_total (i : Nat) : ∃ o, Peg env t s i o := by
  have h := skipTo henv hs hm hN i
  generalize N i = k at h
  cases h with
  | stop h => exact ⟨_, h.toPeg⟩
  | step h _ => exact ⟨_, h.toPeg⟩

theorem skipper_ok (hf : s ≠ .fail) :
    ∃ s', SkipOK env t (skipParser s) N true els elf s' ∧ (∀ i, SkipTo env t s' i (N i)) ∧
      ∀ i S, Halts env t (skipParser s) (fresh (skipParser s)) i S := by
  have hmk : marks (skipParser s) = 0 := noMark_marks s (fun _ => rfl) hm
  refine ⟨s, ⟨skipParser_impl (skipParser_isFail hf) hs, hmk, fun h => skips_step hN h.toPeg,
    fun h => skips_stop hN h.toPeg, skips_idem hN⟩, skipTo henv hs hm hN, fun i S => ?_⟩
  obtain ⟨o, ho⟩ := skipper_total henv hs hm hN i
  have := peg_big (P := skipParser s) henv.unskipped
    (impl_top (r := SkipReqs) (fun h => by cases h) rfl hs) ho S
  rwa [hmk] at this

omit hs hm hN in
theorem skip_env (hf : s ≠ .fail) : ∀ sk, (sk = true → true = true) → ∀ id q, env id = some q →
    Impl (skipParser s) true els elf sk false false els elf
      (elabP (if sk then skipParser s else .fail) RecurChildReqs q) q := by
  intro sk _ id q hq
  refine impl_elab (skipParser_isFail hf) q (r := RecurChildReqs) (by simp) (fun _ => rfl) rfl ?_
  cases sk with
  | true => exact henv id q hq
  | false => exact henv.unskipped id q hq

theorem skip_big {p : Pat} {ls lf i S r i' S'} (hp : p.tidy true els elf false ls lf = true)
    (h : Big env t (elabP (skipParser s) DefaultReqs p) (fresh (elabP (skipParser s) DefaultReqs p)) i
      (List.replicate (marks (elabP (skipParser s) DefaultReqs p)) i ++ S) r i' S') :
    Outcome env t N true false ls lf i p (N i) S r i' S' := by
  by_cases hf : s = .fail
  · subst hf
    have hid : N = id := funext fun i => skips_stop hN .fail
    subst hid
    have := big_peg henv.unskipped
      (impl_top (r := DefaultReqs) (fun h => by cases h) rfl (tidy_unskipped p hp)) h
    cases this with
    | ok a b c => exact .ok a b c
    | no a b c => exact .no a b c
  · exact child_out (fun _ => skipper_ok henv hs hm hN hf) (skip_env henv hf)
      (impl_elab (skipParser_isFail hf) p (sk := true) (by simp) (fun h => by cases h) rfl hp) rfl
      (by simp [DefaultReqs]) h

theorem skip_halts {p : Pat} {ls lf i o} (hp : p.tidy true els elf false ls lf = true)
    (h : PegN env t N p (N i) o) (S : List Nat) :
    Halts env t (elabP (skipParser s) DefaultReqs p) (fresh (elabP (skipParser s) DefaultReqs p)) i
      (List.replicate (marks (elabP (skipParser s) DefaultReqs p)) i ++ S) := by
  by_cases hf : s = .fail
  · subst hf
    have hid : N = id := funext fun i => skips_stop hN .fail
    subst hid
    exact peg_big henv.unskipped
      (impl_top (r := DefaultReqs) (fun h => by cases h) rfl (tidy_unskipped p hp)) h.toPeg S
  · exact (complete (fun _ => skipper_ok henv hs hm hN hf) (skip_env henv hf) h).fh
      (sk := true) rfl
      (impl_elab (skipParser_isFail hf) p (sk := true) (by simp) (fun h => by cases h) rfl hp) rfl rfl
      (by simp [DefaultReqs])

omit henv hs hm hN in
theorem big_withSkipper {P : Prog} {c i S r i' S'} :
    Big env t (.withSkipper P) (.wrap c) i S r i' S' ↔ Big env t P c i S r i' S' := by
  constructor
  · intro h
    cases h with
    | leaf hl => cases hl
    | ret hc hb ha =>
      cases hc
      cases ha
      exact hb
    | cont hc hb ha => cases ha
  · intro h
    exact .ret rfl h (cs' := .unit) rfl

omit henv hs hm hN in
theorem skip_comp {p : Pat} {ls lf} (hp : p.tidy true els elf false ls lf = true)
    (hs : s.tidy false els elf true .none .none = true) :
    Comp (topParser (.withSkipper p s)) :=
  .withSkipper (comp_elab p (comp_elab s .fail hs) hp)

/-- The ghost machine under a skipper. -/
theorem ghost_skip {p : Pat} {r rest} (hp : p.tidy true els elf false .any .any = true)
    (h : GhostParses env (topParser (.withSkipper p s)) t r rest) :
    ∃ i' S', rest = t.drop i' ∧ Outcome env t N true false .any .any 0 p (N 0) [] r i' S' := by
  obtain ⟨i', S', hb, rfl⟩ := (ghost_iff (skip_comp hp hs) (env_comp henv)).1 h
  refine ⟨i', S', rfl, ?_⟩
  exact skip_big henv hs hm hN hp (S := []) (by
    rw [List.append_nil]
    exact big_withSkipper.1 hb)

theorem skip_ghost {p : Pat} {o} (hp : p.tidy true els elf false .any .any = true)
    (h : PegN env t N p (N 0) o) : ∃ r rest, GhostParses env (topParser (.withSkipper p s)) t r rest := by
  obtain ⟨r, i', S', hb⟩ := skip_halts henv hs hm hN hp h []
  rw [List.append_nil] at hb
  exact ⟨r, _, (ghost_iff (skip_comp hp hs) (env_comp henv)).2
    ⟨i', S', big_withSkipper.2 hb, rfl⟩⟩

end
/-- The skip function of a skipper that can be applied to all the rest of the text. -/
theorem skip_function {env : Env} {s : Pat} {t : List Ch}
    (h : ∀ rest, rest <:+ t → ∃ rest', PegRest env (.rep 0 0 s) rest (some rest')) :
    ∃ N : Nat → Nat, ∀ i, Peg env t (.rep 0 0 s) i (some (N i)) := by
  have : ∀ i, ∃ j, Peg env t (.rep 0 0 s) i (some j) := by
    intro i
    obtain ⟨r, hr⟩ := h _ (List.drop_suffix i t)
    obtain ⟨j, hj, _⟩ := peg_of_rest hr
    exact ⟨j, hj⟩
  exact ⟨fun i => (this i).choose, fun i => (this i).choose_spec⟩

theorem up_to {env : Env} {s : Pat} {t : List Ch} {N : Nat → Nat}
    (hN : ∀ i, Peg env t (.rep 0 0 s) i (some (N i))) {i j} (h : N i = N j) :
    UpToSkipping env s (some (t.drop i)) (some (t.drop j)) :=
  .some (rest_of_peg (hN i)) (by rw [h]; exact rest_of_peg (hN j))

end Abu
