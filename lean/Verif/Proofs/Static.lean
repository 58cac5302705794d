import Verif.Model.Static
import Verif.Spec.Skipper
import Verif.Proofs.Terminates
import Verif.Proofs.Apply
/-
What the compile-time checks guarantee.
-/
namespace Abu

mutual
theorem comp_accepted : ∀ (p : Pat) {r r2 : Req} {K : Prog}, Comp K →
    p.accepted r2 = true → Comp (elabP K r p)
  | .char s, r, r2, K, hK, h => comp_adapt (comp_skipper hK) .char
  | .charSymbol s, r, r2, K, hK, h => comp_adapt (comp_skipper hK) .charSymbol
  | .strLit s, r, r2, K, hK, h => comp_adapt (comp_skipper hK) .strLit
  | .symbol s, r, r2, K, hK, h => comp_adapt (comp_skipper hK) .symbol
  | .int .., r, r2, K, hK, h => comp_adapt (comp_skipper hK) .int
  | .uint .., r, r2, K, hK, h => comp_adapt (comp_skipper hK) .uint
  | .eoi, r, r2, K, hK, h => comp_adapt (comp_skipper hK) .eoi
  | .pass, r, r2, K, hK, h => comp_adapt (comp_skipper hK) .pass
  | .fail, r, r2, K, hK, h => comp_adapt (comp_skipper hK) .fail
  | .seq ps, r, r2, K, hK, h => by
    rw [elabP]
    refine comp_adapt (comp_skipper hK) (.seq ?_ ?_ (comp_allAccepted ps hK (band_right h)))
    · have := band_left h
      cases ps with
      | nil => cases this
      | cons => simp [elabPs]
    · rw [tupleSlots_length, elabPs_length]
  | .alt ps, r, r2, K, hK, h => by
    rw [elabP]
    refine comp_adapt (comp_skipper hK) (.alt ?_ (comp_allAccepted ps hK (band_right h)))
    have := band_left h
    cases ps with
    | nil => cases this
    | cons => simp [elabPs]
  | .rep mn mx p, r, r2, K, hK, h => by
    rw [elabP]; exact comp_adapt (comp_skipper hK) (.rep (comp_accepted p hK (band_right h)))
  | .opt p, r, r2, K, hK, h => by
    rw [elabP]; exact comp_adapt (comp_skipper hK) (.opt (comp_accepted p hK h))
  | .not p, r, r2, K, hK, h => by
    rw [elabP]; exact comp_adapt (comp_skipper hK) (.not (comp_accepted p hK h))
  | .discard p, r, r2, K, hK, h => by
    rw [elabP]; exact comp_adapt (comp_skipper hK) (.discard (comp_accepted p hK h))
  | .lexeme p, r, r2, K, hK, h => by
    rw [elabP]; exact comp_adapt (comp_skipper hK) (.lexeme (comp_accepted p .fail h))
  | .bindDst p, r, r2, K, hK, h => by
    rw [elabP]; exact comp_adapt (comp_skipper hK) (.bindDst (comp_accepted p hK h))
  | .construct tys p, r, r2, K, hK, h => by
    rw [elabP]; exact comp_adapt (comp_skipper hK) (.construct (comp_accepted p hK h))
  | .action a p, r, r2, K, hK, h => by
    rw [elabP]; exact comp_adapt (comp_skipper hK) (.action (comp_accepted p hK h))
  | .except op neg, r, r2, K, hK, h => by
    rw [elabP]
    exact comp_adapt (comp_skipper hK)
      (.except (comp_accepted op hK (band_left h)) (comp_accepted neg hK (band_right h)))
  | .list op sep, r, r2, K, hK, h => by
    rw [elabP]
    exact comp_adapt (comp_skipper hK)
      (.list (comp_accepted op hK (band_left h)) (comp_accepted sep hK (band_right h)))
  | .withSkipper p s, r, r2, K, hK, h => by
    rw [elabP]
    exact comp_adapt (comp_skipper hK) (.withSkipper
      (comp_accepted p (comp_accepted s .fail (band_right h)) (band_left h)))
  | .recur id n, r, r2, K, hK, h => by
    rw [elabP]; exact comp_adapt (comp_skipper hK) (.recur hK)
theorem comp_allAccepted : ∀ (ps : List Pat) {r r2 : Req} {K : Prog}, Comp K →
    Pat.allAccepted r2 ps = true → ∀ P ∈ elabPs K r ps, Comp P
  | [], r, r2, K, hK, h => by simp [elabPs]
  | p :: ps, r, r2, K, hK, h => by
    intro P hP
    rw [elabPs, List.mem_cons] at hP
    rcases hP with rfl | hP
    · exact comp_accepted p hK (band_left h)
    · exact comp_allAccepted ps hK (band_right h) P hP
end


theorem Env.accepted.comp {env : Env} (h : env.accepted) : ∀ id q sk, env id = some q → Comp sk →
    Comp (elabP sk RecurChildReqs q) :=
  fun id q _ hq hsk => comp_accepted q hsk (h id q hq)

theorem lower_consumes (r : Req) (p : Pat) : (r.lower p).CONSUMES = r.CONSUMES := by
  unfold Req.lower; split <;> rfl

mutual
theorem eats_of_accepted (c : Nat → Bool) : ∀ (p : Pat) {r : Req}, r.CONSUMES = true →
    p.accepted r = true → p.tracked c = true → p.eats c = true
  | .char _, r, hr, h, ht => rfl
  | .charSymbol _, r, hr, h, ht => by cases ht
  | .strLit s, r, hr, h, ht => ht
  | .symbol _, r, hr, h, ht => rfl
  | .int b mn mx, r, hr, h, ht => by
    have := band_right (band_left (show _ = true from h))
    exact this
  | .uint b mn mx, r, hr, h, ht => by
    have := band_right (band_left (show _ = true from h))
    exact this
  | .eoi, r, hr, h, ht => by cases ht
  | .pass, r, hr, h, ht => by rw [Pat.accepted, hr] at h; cases h
  | .fail, r, hr, h, ht => rfl
  | .seq ps, r, hr, h, ht => ht
  | .alt ps, r, hr, h, ht => by
    refine allEat_of_accepted c ps ?_ (band_right h) ht
    exact (lower_consumes r _).trans hr
  | .rep mn mx p, r, hr, h, ht => by
    rw [Pat.accepted, hr] at h
    rw [Pat.eats, eats_of_accepted c p rfl (band_right h) ht]
    simpa using band_left h
  | .opt p, r, hr, h, ht => by cases ht
  | .not p, r, hr, h, ht => by cases ht
  | .discard p, r, hr, h, ht => eats_of_accepted c p (by rw [lower_consumes]; exact hr) h ht
  | .lexeme p, r, hr, h, ht => eats_of_accepted c p (by rw [lower_consumes]; exact hr) h ht
  | .bindDst p, r, hr, h, ht => by
    refine eats_of_accepted c p (r := { (r.lower (.bindDst p)).derive with ATOMIC := false }) ?_ h ht
    exact (lower_consumes r _).trans hr
  | .construct tys p, r, hr, h, ht => by
    refine eats_of_accepted c p
      (r := { (r.lower (.construct tys p)).derive with ATOMIC := false }) ?_ h ht
    exact (lower_consumes r _).trans hr
  | .action a p, r, hr, h, ht => by
    rw [Pat.accepted, hr] at h
    exact eats_of_accepted c p rfl h ht
  | .except op neg, r, hr, h, ht => by
    refine eats_of_accepted c op
      (r := { (r.lower (.except op neg)).derive with FAILS_CLEANLY := false }) ?_ (band_left h) ht
    exact (lower_consumes r _).trans hr
  | .list op sep, r, hr, h, ht => by cases ht
  | .withSkipper p s, r, hr, h, ht =>
    eats_of_accepted c p (by rw [lower_consumes]; exact hr) (band_left h) ht
  | .recur id n, r, hr, h, ht => ht
theorem allEat_of_accepted (c : Nat → Bool) : ∀ (ps : List Pat) {r : Req}, r.CONSUMES = true →
    Pat.allAccepted r ps = true → Pat.allTracked c ps = true → Pat.allEat c ps = true
  | [], r, hr, h, ht => rfl
  | p :: ps, r, hr, h, ht => by
    rw [Pat.allEat, eats_of_accepted c p hr (band_left h) (band_left ht),
      allEat_of_accepted c ps hr (band_right h) (band_right ht)]
    rfl
end

/-- A skipper that succeeds at every place of a set of states hangs the skip adapter. -/
theorem skip_diverges {env : Env} {s p : Prog} {dst bnd : Ref} {st0 c : PState}
    (Inv : World Cursor Mem → Prop)
    (h : ∀ n w, Inv w → run env n s .nil .nil st0 w = .error .fuel ∨
      ∃ st' w' w'', run env n s .nil .nil st0 w = .ok ((.SUCCESS, st'), w') ∧
        exec (run env n) (mk s .nil .nil) w' = .ok (st0, w'') ∧ Inv w'') :
    ∀ n w, Inv w → run env n (.skip s p) dst bnd (.skip false st0 c) w = .error .fuel := by
  intro n
  induction n with
  | zero => intro w _; rfl
  | succ n ih =>
    intro w hw
    rw [run_succ_eq]
    simp only [body, exec]
    rcases h n w hw with h1 | ⟨st', w', w'', h1, h2, h3⟩
    · rw [h1]
    · rw [h1]
      simp only [exec_bind, h2, exec]
      exact ih w'' h3

/-- The same for `apply_skipper(char_(cs), s)`. -/
theorem never_with_skipper {env : Env} {s : Pat} {cs : CharSet} {dst : Ref} {m : Mem} {t : List Ch}
    {K : Prog} (hK : topParser (.withSkipper (.char cs) s) = .withSkipper (.skip K (.char cs)))
    {st0 : PState} {w : World Cursor Mem} (Inv : World Cursor Mem → Prop)
    (hc : construct (topParser (.withSkipper (.char cs) s)) dst dst
      (⟨Cursor.whole t, m⟩ : World Cursor Mem) = .ok (.wrap (.skip false st0 .unit), w))
    (hw : Inv w)
    (h : ∀ n w, Inv w → run env n K .nil .nil st0 w = .error .fuel ∨
      ∃ st' w' w'', run env n K .nil .nil st0 w = .ok ((.SUCCESS, st'), w') ∧
        exec (run env n) (mk K .nil .nil) w' = .ok (st0, w'') ∧ Inv w'') (v : Verdict) :
    ¬ Parses env (.withSkipper (.char cs) s) dst m t v := by
  refine never_of_diverges hc (fun n => ?_) v
  rw [hK]
  cases n with
  | zero => rfl
  | succ n =>
    rw [run_succ_eq]
    simp only [body, exec]
    rw [skip_diverges Inv h n w hw]

end Abu
