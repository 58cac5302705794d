import Verif.Proofs.Bridge
import Verif.Spec.Apply
/-
One use of a parser, seen by the ghost machine.
-/
namespace Abu

mutual
theorem Prog.mapAct_id : ∀ p : Prog, p.mapAct id = p
  | .seq slots ps => by rw [Prog.mapAct, Prog.mapActs_id ps]
  | .alt ps => by rw [Prog.mapAct, Prog.mapActs_id ps]
  | .rep mn mx p => by rw [Prog.mapAct, Prog.mapAct_id p]
  | .opt p => by rw [Prog.mapAct, Prog.mapAct_id p]
  | .not p => by rw [Prog.mapAct, Prog.mapAct_id p]
  | .discard p => by rw [Prog.mapAct, Prog.mapAct_id p]
  | .lexeme p => by rw [Prog.mapAct, Prog.mapAct_id p]
  | .bindDst p => by rw [Prog.mapAct, Prog.mapAct_id p]
  | .construct tys p => by rw [Prog.mapAct, Prog.mapAct_id p]
  | .action a p => by rw [Prog.mapAct, Prog.mapAct_id p]; rfl
  | .except op neg => by rw [Prog.mapAct, Prog.mapAct_id op, Prog.mapAct_id neg]
  | .list op sep => by rw [Prog.mapAct, Prog.mapAct_id op, Prog.mapAct_id sep]
  | .withSkipper p => by rw [Prog.mapAct, Prog.mapAct_id p]
  | .recur id sk => by rw [Prog.mapAct, Prog.mapAct_id sk]
  | .atomic p => by rw [Prog.mapAct, Prog.mapAct_id p]
  | .clean p => by rw [Prog.mapAct, Prog.mapAct_id p]
  | .skip s p => by rw [Prog.mapAct, Prog.mapAct_id s, Prog.mapAct_id p]
  | .char _ => rfl
  | .charSymbol _ => rfl
  | .strLit _ => rfl
  | .symbol _ => rfl
  | .int .. => rfl
  | .uint .. => rfl
  | .eoi => rfl
  | .pass => rfl
  | .fail => rfl
theorem Prog.mapActs_id : ∀ ps : List Prog, Prog.mapActs id ps = ps
  | [] => rfl
  | p :: ps => by rw [Prog.mapActs, Prog.mapAct_id p, Prog.mapActs_id ps]
end

/-- The cursor that stands for an iterator-pair source. -/
def SingleForward.cursor (s : SingleForward) : Cursor := ⟨s.text, s.current, s.stack, true⟩

theorem SingleForward.Valid.rel {s : SingleForward} (h : s.Valid) : Rel s s.cursor :=
  ⟨h.1, rfl, rfl, h.2.1, rfl, h.2.2, rfl⟩

theorem SingleForward.Rel.valid {s : SingleForward} {c : Cursor} (h : Rel s c) : s.Valid :=
  ⟨h.1, h.2.2.2.1, h.2.2.2.2.2.1⟩

/-- From a use of a parser to the ghost machine. -/
theorem Applies.big {env : Env} {P : Prog} {dst bnd w r w'}
    (h : Applies env P dst bnd w r w') (hw : w.ds.Valid) (hP : Comp P)
    (henv : ∀ id q sk, env id = some q → Comp sk → Comp (elabP sk RecurChildReqs q)) :
    w'.ds.Valid ∧ w'.ds.text = w.ds.text ∧
    Big env w.ds.text P (fresh P) w.ds.current
      (List.replicate (marks P) w.ds.current ++ w.ds.stack) r w'.ds.current w'.ds.stack := by
  obtain ⟨st, w1, st', h1, h2⟩ := h
  obtain ⟨ds, m⟩ := w
  have hc := construct_sim SingleForward.dsSim P dst bnd m hw.rel
  rw [h1] at hc
  generalize hcc : construct P dst bnd (⟨ds.cursor, m⟩ : World Cursor Mem) = y at hc
  cases hc with
  | @ok _ s1 c1 m1 hr1 =>
    obtain ⟨o, ho, hrel⟩ := Evals.sim SingleForward.dsSim h2 hr1
    cases hrel with
    | @ok _ s2 c2 m2 hr2 =>
      have hce := construct_er (g := id) P dst bnd (⟨ds.cursor, m⟩ : World Cursor Mem)
      rw [hcc, Prog.mapAct_id] at hce
      have hgc : construct P .nil .nil (⟨ds.cursor, ()⟩ : World Cursor Unit) =
          .ok (fresh P, gw ds.text ds.current
            (List.replicate (marks P) ds.current ++ ds.stack)) := by
        have := exec_mk (call := fun _ _ _ _ _ => .error .stuck) hP
          (⟨ds.cursor, ()⟩ : World Cursor Unit)
        rw [construct, this, push]; rfl
      rw [hgc] at hce
      generalize hx : (Except.ok (fresh P, gw ds.text ds.current
            (List.replicate (marks P) ds.current ++ ds.stack)) : Out Cursor Unit PState) = x at hce
      cases hce with
      | ok =>
        simp only [Except.ok.injEq, Prod.mk.injEq] at hx
        obtain ⟨hx1, hx2⟩ := hx
        obtain ⟨_, n, hn⟩ := ho
        have hre := run_er (g := id) (fun _ => rfl) env n P dst bnd st ⟨c1, m1⟩
        rw [hn, Prog.mapAct_id, Env.mapAct_id, ← hx1] at hre
        simp only at hre hx2
        rw [← hx2] at hre
        generalize hrr : run env n P .nil .nil (fresh P) (gw ds.text ds.current
            (List.replicate (marks P) ds.current ++ ds.stack)) = z at hre
        cases hre with
        | ok =>
          obtain ⟨i', S', he, hb⟩ := big_of_run henv hP (nilSt_fresh P) hrr
          have hc2 : c2 = ⟨ds.text, i', S', true⟩ := by
            have := congrArg World.ds he
            exact this
          subst hc2
          obtain ⟨a1, a2, a3, a4, a5, a6, a7⟩ := hr2
          simp only at a2 a3 a5
          subst a3 a5
          exact ⟨⟨a1, a4, a6⟩, a2.symm, hb⟩

/-- The outcome of one use of a parser of a tidy pattern. -/
theorem Applies.outcome {env : Env} {p : Pat} {r : Req} {els elf c ls lf dst bnd w res w'}
    (henv : env.tidy false els elf) (hr : r.recurChild = false) (hc : c = r.FAILS_CLEANLY)
    (hp : p.tidy false els elf c ls lf = true) (hw : w.ds.Valid)
    (h : Applies env (elabP .fail r p) dst bnd w res w') :
    w'.ds.Valid ∧ w'.ds.text = w.ds.text ∧
    Outcome env w.ds.text id false c ls lf w.ds.current p w.ds.current w.ds.stack res
      w'.ds.current w'.ds.stack := by
  obtain ⟨h1, h2, hb⟩ := h.big hw (comp_elab p .fail hp) (env_comp henv)
  refine ⟨h1, h2, ?_⟩
  have hi := impl_top (r := r) (by simp [hr]) hc hp
  rw [hr] at hi
  exact big_peg henv hi hb

end Abu
