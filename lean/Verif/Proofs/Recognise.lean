import Verif.Proofs.Tidy
import Verif.Proofs.Erase
/-
From `parse` to the grammar semantics and back.
-/
namespace Abu

theorem comp_adapt {K : Prog} {at' cl} {raw : Prog} (hK : Comp K) (h : Comp raw) :
    Comp (adapt K at' cl raw) := by
  unfold adapt
  have : Comp (if cl then .clean (if at' then .atomic raw else raw) else
      (if at' then .atomic raw else raw)) := by
    cases at' <;> cases cl
    · exact h
    · exact .clean h
    · exact .atomic h
    · exact .clean (.atomic h)
  cases K.isFail
  · exact .skip hK this
  · exact this

theorem comp_skipper {r : Req} {K : Prog} (hK : Comp K) : Comp (r.skipper K) := by
  unfold Req.skipper; split
  · exact .fail
  · exact hK

mutual
theorem comp_elab : ∀ (p : Pat) {sk els elf c ls lf} {r : Req} {K : Prog}, Comp K →
    p.tidy sk els elf c ls lf = true → Comp (elabP K r p)
  | .char s, sk, els, elf, c, ls, lf, r, K, hK, h => comp_adapt (comp_skipper hK) .char
  | .charSymbol s, sk, els, elf, c, ls, lf, r, K, hK, h => by cases h
  | .strLit s, sk, els, elf, c, ls, lf, r, K, hK, h => comp_adapt (comp_skipper hK) .strLit
  | .symbol s, sk, els, elf, c, ls, lf, r, K, hK, h => comp_adapt (comp_skipper hK) .symbol
  | .int .., sk, els, elf, c, ls, lf, r, K, hK, h => comp_adapt (comp_skipper hK) .int
  | .uint .., sk, els, elf, c, ls, lf, r, K, hK, h => comp_adapt (comp_skipper hK) .uint
  | .eoi, sk, els, elf, c, ls, lf, r, K, hK, h => comp_adapt (comp_skipper hK) .eoi
  | .pass, sk, els, elf, c, ls, lf, r, K, hK, h => comp_adapt (comp_skipper hK) .pass
  | .fail, sk, els, elf, c, ls, lf, r, K, hK, h => comp_adapt (comp_skipper hK) .fail
  | .seq ps, sk, els, elf, c, ls, lf, r, K, hK, h => by
    rw [elabP]
    refine comp_adapt (comp_skipper hK) (.seq ?_ ?_ (comp_seq ps hK (band_right h)))
    · have := band_left h
      cases ps with
      | nil => cases this
      | cons => simp [elabPs]
    · rw [tupleSlots_length, elabPs_length]
  | .alt ps, sk, els, elf, c, ls, lf, r, K, hK, h => by
    rw [elabP]
    refine comp_adapt (comp_skipper hK) (.alt ?_ (comp_alt ps hK (band_right h)))
    have := band_left h
    cases ps with
    | nil => cases this
    | cons => simp [elabPs]
  | .rep mn mx p, sk, els, elf, c, ls, lf, r, K, hK, h => by
    rw [elabP]; exact comp_adapt (comp_skipper hK) (.rep (comp_elab p hK h))
  | .opt p, sk, els, elf, c, ls, lf, r, K, hK, h => by
    rw [elabP]; exact comp_adapt (comp_skipper hK) (.opt (comp_elab p hK (band_right h)))
  | .not p, sk, els, elf, c, ls, lf, r, K, hK, h => by
    rw [elabP]; exact comp_adapt (comp_skipper hK) (.not (comp_elab p hK h))
  | .discard p, sk, els, elf, c, ls, lf, r, K, hK, h => by
    rw [elabP]; exact comp_adapt (comp_skipper hK) (.discard (comp_elab p hK h))
  | .lexeme p, sk, els, elf, c, ls, lf, r, K, hK, h => by
    rw [elabP]; exact comp_adapt (comp_skipper hK) (.lexeme (comp_elab p .fail (band_right h)))
  | .bindDst p, sk, els, elf, c, ls, lf, r, K, hK, h => by
    rw [elabP]; exact comp_adapt (comp_skipper hK) (.bindDst (comp_elab p hK h))
  | .construct tys p, sk, els, elf, c, ls, lf, r, K, hK, h => by
    rw [elabP]; exact comp_adapt (comp_skipper hK) (.construct (comp_elab p hK h))
  | .action a p, sk, els, elf, c, ls, lf, r, K, hK, h => by
    rw [elabP]; exact comp_adapt (comp_skipper hK) (.action (comp_elab p hK h))
  | .except op neg, sk, els, elf, c, ls, lf, r, K, hK, h => by
    rw [elabP]
    exact comp_adapt (comp_skipper hK)
      (.except (comp_elab op hK (band_left h)) (comp_elab neg hK (band_right h)))
  | .list op sep, sk, els, elf, c, ls, lf, r, K, hK, h => by
    rw [elabP]
    exact comp_adapt (comp_skipper hK)
      (.list (comp_elab op hK (band_left h)) (comp_elab sep hK (band_right h)))
  | .withSkipper p s, sk, els, elf, c, ls, lf, r, K, hK, h => by cases h
  | .recur id n, sk, els, elf, c, ls, lf, r, K, hK, h => by
    rw [elabP]; exact comp_adapt (comp_skipper hK) (.recur hK)
theorem comp_seq : ∀ (ps : List Pat) {sk els elf ls lf} {r : Req} {K : Prog}, Comp K →
    Pat.tidySeq sk els elf ls lf ps = true → ∀ P ∈ elabPs K r ps, Comp P
  | [], sk, els, elf, ls, lf, r, K, hK, h => by simp [elabPs]
  | p :: ps, sk, els, elf, ls, lf, r, K, hK, h => by
    intro P hP
    rw [elabPs, List.mem_cons] at hP
    rcases hP with rfl | hP
    · exact comp_elab p hK (band_left h)
    · exact comp_seq ps hK (band_right h) P hP
theorem comp_alt : ∀ (ps : List Pat) {sk els elf ls lf} {r : Req} {K : Prog}, Comp K →
    Pat.tidyAlt sk els elf ls lf ps = true → ∀ P ∈ elabPs K r ps, Comp P
  | [], sk, els, elf, ls, lf, r, K, hK, h => by simp [elabPs]
  | p :: ps, sk, els, elf, ls, lf, r, K, hK, h => by
    intro P hP
    rw [elabPs, List.mem_cons] at hP
    rcases hP with rfl | hP
    · exact comp_elab p hK (band_left h)
    · exact comp_alt ps hK (band_right h) P hP
end

/-- Verdict and unread text that go with an outcome of the grammar semantics. -/
inductive Agrees (t : List Ch) : Option Nat → Res → List Ch → Prop
  | ok {j} : Agrees t (some j) .SUCCESS (t.drop j)
  | no {rest} : Agrees t none .FAILURE rest

section
variable {env : Env} {els elf : Stale}

theorem impl_top {p : Pat} {c ls lf} {r : Req} (hr : r.recurChild = true → r.FAILS_CLEANLY = false)
    (hc : c = r.FAILS_CLEANLY) (h : p.tidy false els elf c ls lf = true) :
    Impl .pass false els elf false (!r.recurChild) c ls lf (elabP .fail r p) p :=
  impl_elab (K := .pass) rfl p (sk := false) (by simp) hr hc h

theorem impl_env (henv : env.tidy false els elf) :
    ∀ sk, (sk = true → false = true) → ∀ id q, env id = some q →
      Impl .pass false els elf sk false false els elf
        (elabP (if sk then .pass else .fail) RecurChildReqs q) q := by
  intro sk hs id q hq
  have : sk = false := by cases sk <;> simp_all
  subst this
  exact impl_top (r := RecurChildReqs) (fun _ => rfl) rfl (henv id q hq)

theorem env_comp {sk} (henv : env.tidy sk els elf) (id : Nat) (q : Pat) (K : Prog)
    (hq : env id = some q) (hK : Comp K) : Comp (elabP K RecurChildReqs q) :=
  comp_elab q hK (henv id q hq)

/-- The machine on the ghost world, for programs of tidy patterns without skipper. -/
theorem big_peg {t P p c ls lf i S r i' S'} (henv : env.tidy false els elf)
    (hI : Impl .pass false els elf false true c ls lf P p)
    (h : Big env t P (fresh P) i (List.replicate (marks P) i ++ S) r i' S') :
    Outcome env t id false c ls lf i p i S r i' S' :=
  child_out (useSk := false) (by simp) (impl_env henv) hI rfl (by simp) h

theorem peg_big {t P p c ls lf i o} (henv : env.tidy false els elf)
    (hI : Impl .pass false els elf false true c ls lf P p) (h : Peg env t p i o) (S : List Nat) :
    Halts env t P (fresh P) i (List.replicate (marks P) i ++ S) :=
  (complete (K := .pass) (N := id) (useSk := false) (by simp) (impl_env henv) h.toN).fh
    (sk := false) rfl hI rfl rfl (by simp)

theorem construct_ghost {P : Prog} (h : Comp P) (t : List Ch) :
    construct P .nil .nil (⟨Cursor.whole t, ()⟩ : World Cursor Unit) =
      .ok (fresh P, gw t 0 (List.replicate (marks P) 0)) := by
  have := exec_mk (call := fun _ _ _ _ _ => .error .stuck) h
    (⟨Cursor.whole t, ()⟩ : World Cursor Unit)
  rw [construct, this, push]
  simp [Cursor.whole]

theorem ghost_iff {P : Prog} {t r rest} (hP : Comp P)
    (henv : ∀ id q sk, env id = some q → Comp sk → Comp (elabP sk RecurChildReqs q)) :
    GhostParses env P t r rest ↔ ∃ i' S', Big env t P (fresh P) 0 (List.replicate (marks P) 0) r i' S' ∧
      rest = t.drop i' := by
  constructor
  · rintro ⟨st, w, n, st', w', h1, h2, rfl⟩
    rw [construct_ghost hP] at h1
    cases h1
    obtain ⟨i', S', rfl, hb⟩ := big_of_run henv hP (nilSt_fresh P) h2
    exact ⟨i', S', hb, rfl⟩
  · rintro ⟨i', S', hb, rfl⟩
    obtain ⟨n, st', hn⟩ := run_of_big hb henv hP (.refl _)
    exact ⟨_, _, n, st', _, construct_ghost hP t, hn, rfl⟩

theorem ghost_peg {t r rest} {p : Pat} {ls lf} (henv : env.tidy false els elf)
    (hp : p.tidy false els elf false ls lf = true) (h : GhostParses env (topParser p) t r rest) :
    ∃ o, Peg env t p 0 o ∧ Agrees t o r rest := by
  obtain ⟨i', S', hb, rfl⟩ :=
    (ghost_iff (comp_elab p .fail hp) (env_comp henv)).1 h
  have := big_peg (S := []) henv (impl_top (r := DefaultReqs) (by simp [DefaultReqs]) rfl hp)
    (by simpa using hb)
  cases this with
  | ok a b d =>
    have b : i' = _ := b
    subst b
    exact ⟨_, a.toPeg, .ok⟩
  | no a b d => exact ⟨_, a.toPeg, .no⟩

theorem peg_ghost {t o} {p : Pat} {ls lf} (henv : env.tidy false els elf)
    (hp : p.tidy false els elf false ls lf = true) (h : Peg env t p 0 o) :
    ∃ r rest, GhostParses env (topParser p) t r rest ∧ Agrees t o r rest := by
  obtain ⟨r, i', S', hb⟩ := peg_big henv
    (impl_top (r := DefaultReqs) (by simp [DefaultReqs]) rfl hp) h []
  have hg : GhostParses env (topParser p) t r (t.drop i') :=
    (ghost_iff (comp_elab p .fail hp) (env_comp henv)).2 ⟨i', S', by simpa using hb, rfl⟩
  refine ⟨r, _, hg, ?_⟩
  obtain ⟨o', h1, h2⟩ := ghost_peg henv hp hg
  rw [h.unique h1]; exact h2

end

mutual
theorem Pat.mapAct_id : ∀ p : Pat, p.mapAct id = p
  | .seq ps => by rw [Pat.mapAct, Pat.mapActs_id ps]
  | .alt ps => by rw [Pat.mapAct, Pat.mapActs_id ps]
  | .rep mn mx p => by rw [Pat.mapAct, Pat.mapAct_id p]
  | .opt p => by rw [Pat.mapAct, Pat.mapAct_id p]
  | .not p => by rw [Pat.mapAct, Pat.mapAct_id p]
  | .discard p => by rw [Pat.mapAct, Pat.mapAct_id p]
  | .lexeme p => by rw [Pat.mapAct, Pat.mapAct_id p]
  | .bindDst p => by rw [Pat.mapAct, Pat.mapAct_id p]
  | .construct tys p => by rw [Pat.mapAct, Pat.mapAct_id p]
  | .action a p => by rw [Pat.mapAct, Pat.mapAct_id p]; rfl
  | .except op neg => by rw [Pat.mapAct, Pat.mapAct_id op, Pat.mapAct_id neg]
  | .list op sep => by rw [Pat.mapAct, Pat.mapAct_id op, Pat.mapAct_id sep]
  | .withSkipper p s => by rw [Pat.mapAct, Pat.mapAct_id p, Pat.mapAct_id s]
  | .recur id n => rfl
  | .char _ => rfl
  | .charSymbol _ => rfl
  | .strLit _ => rfl
  | .symbol _ => rfl
  | .int .. => rfl
  | .uint .. => rfl
  | .eoi => rfl
  | .pass => rfl
  | .fail => rfl
theorem Pat.mapActs_id : ∀ ps : List Pat, Pat.mapActs id ps = ps
  | [] => rfl
  | p :: ps => by rw [Pat.mapActs, Pat.mapAct_id p, Pat.mapActs_id ps]
end

theorem Env.mapAct_id (env : Env) : env.mapAct id = env := by
  funext i
  show (env i).map (Pat.mapAct id) = env i
  cases env i with
  | none => rfl
  | some p => rw [Option.map_some, Pat.mapAct_id]

theorem Parses.ghost_id {env p dst m t r m' rest} (h : Parses env p dst m t (.ok (r, m', rest))) :
    GhostParses env (topParser p) t r rest := by
  have := h.ghost (g := id) (fun _ => rfl)
  rwa [Env.mapAct_id, Pat.mapAct_id] at this

theorem GhostParses.real_id {env p t r rest} (h : GhostParses env (topParser p) t r rest)
    (dst : Ref) (m : Mem) : (∃ m', Parses env p dst m t (.ok (r, m', rest))) ∨
    ∃ e, e.ofMem = true ∧ Parses env p dst m t (.error e) := by
  refine GhostParses.real (g := id) (fun _ => rfl) ?_ dst m
  rwa [Env.mapAct_id, Pat.mapAct_id]

end Abu
