import Verif.Proofs.FilledRun
import Verif.Proofs.Valued
/-
Parsers that never read what was not initialised, continued: patterns and whole parses.
-/
namespace Abu

variable {F : Nat → Bool} {G : Nat → Ty → Bool}

theorem adapt_surely {sk raw a c} (h : a = true ∨ Prog.surely F raw = true) :
    (adapt sk a c raw).surely F = true := by
  unfold adapt
  have h1 : (if a = true then Prog.atomic raw else raw).surely F = true := by
    cases a with
    | true => rfl
    | false => exact h.resolve_left (by simp)
  dsimp only
  generalize (if a = true then Prog.atomic raw else raw) = q at h1
  cases c <;> cases sk.isFail <;> exact h1

mutual
theorem elab_surely {sk : Prog} {r : Req} : (p : Pat) → p.surely F = true →
    (elabP sk r p).surely F = true
  | .char _, _ => by rw [elabP]; exact adapt_surely (.inr rfl)
  | .charSymbol _, _ => by rw [elabP]; exact adapt_surely (.inr rfl)
  | .strLit _, h => by cases h
  | .symbol _, _ => by rw [elabP]; exact adapt_surely (.inr rfl)
  | .int .., _ => by rw [elabP]; exact adapt_surely (.inr rfl)
  | .uint .., _ => by rw [elabP]; exact adapt_surely (.inr rfl)
  | .eoi, h => by cases h
  | .pass, h => by cases h
  | .fail, _ => by rw [elabP]; exact adapt_surely (.inr rfl)
  | .seq ps, h => by
    rw [elabP]; rw [Pat.surely] at h
    exact adapt_surely (.inr (elabs_someSurely 0 ps h))
  | .alt ps, h => by
    rw [elabP]; rw [Pat.surely] at h
    exact adapt_surely (.inr (elabs_allSurely ps h))
  | .rep mn mx p, h => by
    rw [elabP]; rw [Pat.surely, Bool.and_eq_true] at h
    exact adapt_surely (.inr (by rw [Prog.surely, Bool.and_eq_true]; exact ⟨h.1, elab_surely p h.2⟩))
  | .opt _, h => by cases h
  | .not _, h => by cases h
  | .discard _, h => by cases h
  | .lexeme p, h => by rw [elabP]; exact adapt_surely (.inr (elab_surely p h))
  | .bindDst p, h => by rw [elabP]; exact adapt_surely (.inr (elab_surely p h))
  | .construct .., _ => by rw [elabP]; exact adapt_surely (.inr rfl)
  | .action a p, h => by rw [elabP]; exact adapt_surely (.inr h)
  | .except op neg, h => by rw [elabP]; exact adapt_surely (.inr (elab_surely op h))
  | .list .., h => by cases h
  | .withSkipper p s, h => by rw [elabP]; exact adapt_surely (.inr (elab_surely p h))
  | .recur id n, h => by rw [elabP]; exact adapt_surely (.inr h)
theorem elabs_someSurely {sk : Prog} {r : Req} : (n : Nat) → (ps : List Pat) →
    Pat.someSurely F ps = true → Prog.someSurely F (tupleSlots n ps) (elabPs sk r ps) = true
  | _, [], h => by cases h
  | n, p :: ps, h => by
    rw [Pat.someSurely, Bool.or_eq_true] at h
    rw [tupleSlots, elabPs]
    cases hb : p.dstBehavior with
    | IGNORE =>
      rw [valued_of_ignore hb] at h
      rcases h with h | h
      · cases h
      · dsimp only
        rw [Prog.someSurely, elabs_someSurely n ps h, Bool.or_true]
    | VALUE =>
      dsimp only
      rw [Prog.someSurely, Bool.or_eq_true]
      rcases h with h | h
      · rw [Bool.and_eq_true] at h
        exact .inl (by rw [elab_surely p h.2]; rfl)
      · exact .inr (elabs_someSurely (n + 1) ps h)
theorem elabs_allSurely {sk : Prog} {r : Req} : (ps : List Pat) → Pat.allSurely F ps = true →
    Prog.allSurely F (elabPs sk r ps) = true
  | [], _ => by rw [elabPs]; rfl
  | p :: ps, h => by
    rw [Pat.allSurely, Bool.and_eq_true] at h
    rw [elabPs, Prog.allSurely, elab_surely p h.1, elabs_allSurely ps h.2]; rfl
end

theorem careful_atomic {a : Bool} {ty : Ty} {raw : Prog}
    (hs : (a && ty.item.scalar) = true → raw.surely F = true)
    (hc : raw.Careful F G (ty.inner a)) :
    (if a = true then Prog.atomic raw else raw).Careful F G ty := by
  cases a with
  | true => rw [if_pos rfl, Prog.Careful]; exact ⟨fun h => hs (by rw [h]; rfl), hc⟩
  | false => exact hc

theorem adapt_careful {sk raw a c} {ty : Ty} (hsk : sk.Careful F G .nil)
    (hs : (a && ty.item.scalar) = true → raw.surely F = true)
    (hc : raw.Careful F G (ty.inner a)) : (adapt sk a c raw).Careful F G ty := by
  have h1 := careful_atomic hs hc
  unfold adapt
  dsimp only
  generalize (if a = true then Prog.atomic raw else raw) = q at h1
  have h2 : (if c = true then Prog.clean q else q).Careful F G ty := by
    cases c with
    | true => rw [if_pos rfl, Prog.Careful]; exact h1
    | false => exact h1
  generalize (if c = true then Prog.clean q else q) = q2 at h2
  cases sk.isFail with
  | true => exact h2
  | false => show (Prog.skip sk q2).Careful F G ty; rw [Prog.Careful]; exact ⟨hsk, h2⟩

/-- Requirements that are possible. -/
def Req.Ok (r : Req) : Prop := r.recurChild = true → r.ATOMIC = false

theorem needsAtomic_eq {r : Req} (h : r.Ok) (p : Pat) : r.needsAtomic p = (r.ATOMIC && !p.ATOMIC) := by
  unfold Req.needsAtomic
  cases hc : r.recurChild with
  | true => rw [h hc]; rfl
  | false => rfl

theorem lower_ATOMIC {r : Req} (h : r.Ok) (p : Pat) :
    (r.lower p).ATOMIC = (r.ATOMIC && p.ATOMIC) := by
  unfold Req.lower
  cases hc : r.recurChild with
  | true => rw [if_pos rfl, h hc]; rfl
  | false =>
    simp only [Bool.false_eq_true, if_false, needsAtomic_eq h]
    cases r.ATOMIC <;> cases p.ATOMIC <;> rfl

theorem lower_ok {r : Req} (h : r.Ok) (p : Pat) : (r.lower p).Ok := by
  intro hc
  rw [lower_ATOMIC h]
  have : r.recurChild = true := by
    unfold Req.lower at hc
    split at hc
    · assumption
    · exact hc
  rw [h this]; rfl

theorem ok_of_not_recur {r : Req} (h : r.recurChild = false) : r.Ok := by
  intro hc; rw [h] at hc; cases hc

theorem skipper_careful {sk : Prog} {r : Req} (h : sk.Careful F G .nil) :
    (r.skipper sk).Careful F G .nil := by
  unfold Req.skipper
  split
  · trivial
  · exact h

/-- The premises of `adapt_careful` for patterns that are atomic by themselves. -/
theorem adapt_careful_self {sk : Prog} {r : Req} {p : Pat} {raw c} {ty : Ty} (hr : r.Ok)
    (hp : p.ATOMIC = true) (hsk : sk.Careful F G .nil) (hc : raw.Careful F G ty) :
    (adapt (r.skipper sk) (r.needsAtomic p) c raw).Careful F G ty := by
  rw [needsAtomic_eq hr, hp, Bool.not_true, Bool.and_false]
  exact adapt_careful (skipper_careful hsk) (fun h => by cases h) hc

/-- The premises of `adapt_careful` for patterns that are not. -/
theorem adapt_careful_buffered {sk : Prog} {r : Req} {p : Pat} {raw c} {ty : Ty} (hr : r.Ok)
    (hp : p.ATOMIC = false) (hsk : sk.Careful F G .nil)
    (hb : bufferSafe F r.ATOMIC ty p = true) (hs : p.surely F = true → raw.surely F = true)
    (hc : raw.Careful F G (ty.inner r.ATOMIC)) :
    (adapt (r.skipper sk) (r.needsAtomic p) c raw).Careful F G ty := by
  rw [needsAtomic_eq hr, hp, Bool.not_false, Bool.and_true]
  refine adapt_careful (skipper_careful hsk) (fun h => hs ?_) hc
  unfold bufferSafe at hb
  rw [h] at hb
  exact hb

mutual
theorem elab_careful {sk : Prog} {r : Req} {ty : Ty} : (p : Pat) → r.Ok → p.Tame →
    p.careful F G r.ATOMIC ty = true → sk.Careful F G .nil → (elabP sk r p).Careful F G ty
  | .char _, _, _, _, hsk => by
    rw [elabP]; exact adapt_careful (skipper_careful hsk) (fun h => by cases h) trivial
  | .charSymbol _, _, ht, _, hsk => by
    rw [elabP]; exact adapt_careful (skipper_careful hsk) (fun h => by cases h) ht
  | .strLit _, _, _, _, hsk => by
    rw [elabP]; exact adapt_careful (skipper_careful hsk) (fun h => by cases h) trivial
  | .symbol _, _, ht, _, hsk => by
    rw [elabP]; exact adapt_careful (skipper_careful hsk) (fun h => by cases h) ht
  | .int .., _, _, _, hsk => by
    rw [elabP]; exact adapt_careful (skipper_careful hsk) (fun _ => rfl) trivial
  | .uint .., _, _, _, hsk => by
    rw [elabP]; exact adapt_careful (skipper_careful hsk) (fun _ => rfl) trivial
  | .eoi, _, _, _, hsk => by
    rw [elabP]; exact adapt_careful (skipper_careful hsk) (fun h => by cases h) trivial
  | .pass, _, _, _, hsk => by
    rw [elabP]; exact adapt_careful (skipper_careful hsk) (fun h => by cases h) trivial
  | .fail, _, _, _, hsk => by
    rw [elabP]; exact adapt_careful (skipper_careful hsk) (fun h => by cases h) trivial
  | .seq ps, hr, ht, hc, hsk => by
    rw [Pat.careful, Bool.and_eq_true] at hc
    rw [elabP]
    refine adapt_careful_buffered hr rfl hsk hc.1 (fun h => elabs_someSurely 0 ps h) ?_
    rw [Prog.Careful]
    exact elabs_carefulSeq 0 ps ht hc.2 hsk
  | .alt ps, hr, ht, hc, hsk => by
    rw [Pat.careful] at hc
    rw [elabP]
    refine adapt_careful_self hr rfl hsk ?_
    rw [Prog.Careful]
    refine elabs_careful ps (ok_of_not_recur rfl) ht ?_ hsk
    show Pat.allCareful F G (r.lower (.alt ps)).ATOMIC ty ps = true
    rw [lower_ATOMIC hr, show (Pat.alt ps).ATOMIC = true from rfl, Bool.and_true]
    exact hc
  | .rep mn mx p, hr, ht, hc, hsk => by
    rw [Pat.careful, Bool.and_eq_true] at hc
    rw [elabP]
    refine adapt_careful_buffered hr rfl hsk hc.1 (fun h => ?_) ?_
    · rw [Pat.surely, Bool.and_eq_true] at h
      rw [Prog.surely, Bool.and_eq_true]
      exact ⟨h.1, elab_surely p h.2⟩
    · rw [Prog.Careful]
      exact elab_careful p (ok_of_not_recur rfl) ht hc.2 hsk
  | .opt p, hr, ht, hc, hsk => by
    rw [Pat.careful] at hc
    rw [elabP]
    refine adapt_careful_self hr rfl hsk ?_
    rw [Prog.Careful]
    exact elab_careful p (ok_of_not_recur rfl) ht hc hsk
  | .not p, hr, ht, hc, hsk => by
    rw [Pat.careful] at hc
    rw [elabP]
    refine adapt_careful_self hr rfl hsk ?_
    rw [Prog.Careful]
    exact elab_careful p (ok_of_not_recur rfl) ht hc hsk
  | .discard p, hr, ht, hc, hsk => by
    rw [Pat.careful] at hc
    rw [elabP]
    refine adapt_careful_self hr rfl hsk ?_
    rw [Prog.Careful]
    refine elab_careful p (lower_ok hr _) ht ?_ hsk
    rw [lower_ATOMIC hr, show (Pat.discard p).ATOMIC = true from rfl, Bool.and_true]
    exact hc
  | .lexeme p, hr, ht, hc, hsk => by
    rw [Pat.careful] at hc
    rw [elabP]
    refine adapt_careful_self hr rfl hsk ?_
    rw [Prog.Careful]
    refine elab_careful p (lower_ok hr _) ht ?_ trivial
    rw [lower_ATOMIC hr, show (Pat.lexeme p).ATOMIC = true from rfl, Bool.and_true]
    exact hc
  | .bindDst p, hr, ht, hc, hsk => by
    rw [Pat.careful, Bool.and_eq_true] at hc
    rw [elabP]
    refine adapt_careful_buffered hr rfl hsk hc.1 (fun h => elab_surely p h) ?_
    rw [Prog.Careful]
    exact elab_careful p (ok_of_not_recur rfl) ht hc.2 hsk
  | .construct tys p, hr, ht, hc, hsk => by
    rw [Pat.careful] at hc
    rw [elabP]
    refine adapt_careful_self hr rfl hsk ?_
    rw [Prog.Careful]
    exact elab_careful p (ok_of_not_recur rfl) ht hc hsk
  | .action a p, hr, ht, hc, hsk => by
    rw [Pat.careful, Bool.and_eq_true] at hc
    rw [elabP]
    refine adapt_careful_self hr rfl hsk ?_
    rw [Prog.Careful]
    refine ⟨ht.1, fun h => ?_, elab_careful p (ok_of_not_recur rfl) ht.2 hc.2 hsk⟩
    have := hc.1
    rw [h] at this
    exact elab_surely p this
  | .except op neg, hr, ht, hc, hsk => by
    rw [Pat.careful, Bool.and_eq_true] at hc
    rw [elabP]
    refine adapt_careful_self hr rfl hsk ?_
    rw [Prog.Careful]
    refine ⟨elab_careful op (ok_of_not_recur rfl) ht.1 ?_ hsk,
      elab_careful neg (ok_of_not_recur rfl) ht.2 hc.2 hsk⟩
    show op.careful F G (r.lower (.except op neg)).ATOMIC ty = true
    rw [lower_ATOMIC hr, show (Pat.except op neg).ATOMIC = true from rfl, Bool.and_true]
    exact hc.1
  | .list op sep, hr, ht, hc, hsk => by
    rw [Pat.careful, Bool.and_eq_true, Bool.and_eq_true] at hc
    rw [elabP]
    refine adapt_careful_buffered hr rfl hsk hc.1.1 (fun h => by cases h) ?_
    rw [Prog.Careful]
    exact ⟨elab_careful op (ok_of_not_recur rfl) ht.1 hc.1.2 hsk,
      elab_careful sep (ok_of_not_recur rfl) ht.2 hc.2 hsk⟩
  | .withSkipper p s, hr, ht, hc, hsk => by
    rw [Pat.careful, Bool.and_eq_true, Bool.and_eq_true] at hc
    rw [elabP, needsAtomic_eq hr, show (Pat.withSkipper p s).ATOMIC = p.ATOMIC by rw [Pat.ATOMIC]]
    refine adapt_careful (skipper_careful hsk) (fun h => ?_) ?_
    · have := hc.1.1
      unfold bufferSafe at this
      rw [h] at this
      exact elab_surely p this
    · rw [Prog.Careful]
      refine elab_careful p (lower_ok hr _) ht.1 ?_
        (elab_careful s (ok_of_not_recur rfl) ht.2 hc.2 trivial)
      rw [lower_ATOMIC hr, show (Pat.withSkipper p s).ATOMIC = p.ATOMIC by rw [Pat.ATOMIC]]
      exact hc.1.2
  | .recur id n, hr, ht, hc, hsk => by
    rw [Pat.careful, Bool.and_eq_true] at hc
    rw [elabP]
    refine adapt_careful_buffered hr rfl hsk hc.1 (fun h => h) ?_
    rw [Prog.Careful]
    exact ⟨hc.2, hsk⟩
theorem elabs_careful {sk : Prog} {r : Req} {ty : Ty} : (ps : List Pat) → r.Ok → Pat.AllTame ps →
    Pat.allCareful F G r.ATOMIC ty ps = true → sk.Careful F G .nil →
    Prog.AllCareful F G ty (elabPs sk r ps)
  | [], _, _, _, _ => by rw [elabPs]; trivial
  | p :: ps, hr, ht, hc, hsk => by
    rw [Pat.allCareful, Bool.and_eq_true] at hc
    rw [elabPs, Prog.AllCareful]
    exact ⟨elab_careful p hr ht.1 hc.1 hsk, elabs_careful ps hr ht.2 hc.2 hsk⟩
theorem elabs_carefulSeq {sk : Prog} {ty : Ty} : (n : Nat) → (ps : List Pat) → Pat.AllTame ps →
    Pat.carefulSeq F G ty n ps = true → sk.Careful F G .nil →
    Prog.CarefulSeq F G ty (tupleSlots n ps) (elabPs sk ⟨false, false, false, false⟩ ps)
  | _, [], _, _, _ => by rw [elabPs, tupleSlots]; trivial
  | n, p :: ps, ht, hc, hsk => by
    rw [tupleSlots, elabPs]
    rw [Pat.carefulSeq] at hc
    cases hb : p.dstBehavior with
    | IGNORE =>
      rw [valued_of_ignore hb, if_neg (by decide)] at hc
      dsimp only
      rw [Bool.and_eq_true] at hc
      rw [Prog.CarefulSeq]
      exact ⟨elab_careful p (ok_of_not_recur rfl) ht.1 hc.1 hsk, elabs_carefulSeq n ps ht.2 hc.2 hsk⟩
    | VALUE =>
      rw [valued_of_value hb, if_pos rfl] at hc
      dsimp only
      rw [Bool.and_eq_true] at hc
      rw [Prog.CarefulSeq]
      exact ⟨elab_careful p (ok_of_not_recur rfl) ht.1 hc.1 hsk,
        elabs_carefulSeq (n + 1) ps ht.2 hc.2 hsk⟩
end

/-! ### Runs -/

section
variable {σ : Type} [DataSource σ] {env : Env}

theorem run_careful (he : env.Careful F G) : ∀ (n : Nat) (p : Prog) (d b : Ref) (st : PState)
    (w : World σ Mem), Callable env F G p d st w.mem →
    Sober (fun x => Returned env F p d w.mem x.1.1 x.1.2 x.2.mem) (run env n p d b st w)
  | 0, _, _, _, _, _, _ => by intro h; cases h
  | n + 1, p, d, b, st, w, h => by
    have hb := exec_safe (run_careful he n) _ (body_safe (b := b) (fun id q sk ty hq hG hsk => by
      obtain ⟨h1, h2, h3⟩ := he id q hq
      exact ⟨elab_careful q (fun _ => rfl) h1 (h3 ty hG) hsk, fun hF => elab_surely q (h2 hF)⟩) h)
    rw [run]
    cases hx : exec (run env n) (body env p d b st) w with
    | error e => rw [hx] at hb; exact hb
    | ok x =>
      obtain ⟨s, w'⟩ := x
      rw [hx] at hb
      cases s with
      | ret r st' => exact hb
      | cont st' =>
        have hM : Made env F p d w.mem st' w'.mem := hb
        refine (run_careful he n p d b st' w' ⟨hM.1, h.2.1, h.2.2.1.later hM.2.1, hM.2.2⟩).imp ?_
        intro x hR
        exact ⟨hR.1, hM.2.1.trans hR.2.1, hR.2.2⟩

theorem construct_careful (p : Prog) (d b : Ref) (w : World σ Mem) (hm : w.mem.Sound)
    (hp : p.Careful F G d.ty) (hd : w.mem.Sane d) :
    Sober (fun x => Made env F p d w.mem x.1 x.2.mem) (construct p d b w) := by
  have : ∀ {α : Type} {Q : α → Mem → Prop} (c : Cmd α), ∀ {w : World σ Mem},
      c.Safe env F G Q w.mem →
      Sober (fun x => Q x.1 x.2.mem)
        (exec (fun _ _ _ _ _ => .error .stuck) c w) := by
    intro α Q c
    exact exec_safe (fun _ _ _ _ _ _ => by intro h; cases h) c
  exact this _ (mk_safe p d b w.mem hm hp hd)

/-- What the user sees. -/
def Verdict.Clean (m : Mem) : Verdict → Prop
  | .error e => e ≠ .ubUninit
  | .ok (_, m', _) => m'.Sound ∧ m.Later m'

theorem Session.careful (he : env.Careful F G) {add : σ → List Ch → Bool → Option σ} {p : Prog}
    {d : Ref} {st : PState} {w : World σ Mem} {ops : List SOp} {v : Verdict}
    (h : Session add env p d st w ops v) (hc : Callable env F G p d st w.mem) :
    Verdict.Clean w.mem v := by
  have hrun : ∀ {st : PState} {w : World σ Mem} {o}, Evals env p d d st w o →
      Callable env F G p d st w.mem →
      Sober (fun x => Returned env F p d w.mem x.1.1 x.1.2 x.2.mem) o := by
    intro st w o ho hc
    obtain ⟨_, n, hn⟩ := ho
    rw [← hn]
    exact run_careful he n p d d st w hc
  induction h with
  | nil _ => exact ⟨hc.1, .refl _⟩
  | addBad _ => intro h; cases h
  | add _ _ ih => exact ih hc
  | error h1 => exact hrun h1 hc
  | verdict h1 _ _ => exact ⟨(hrun h1 hc).1, (hrun h1 hc).2.1⟩
  | @more st w ops st' w' v h1 _ ih =>
    have hR : Returned env F p d w.mem .PARTIAL st' w'.mem := hrun h1 hc
    have := ih ⟨hR.1, hc.2.1, hc.2.2.1.later hR.2.1, hR.2.2.1 rfl⟩
    cases v with
    | error e => exact this
    | ok x => exact ⟨this.1, hR.2.1.trans this.2⟩

end

theorem MakeParserRun.careful {env : Env} (he : env.Careful F G) {p : Pat} {d : Ref} {m : Mem}
    {ops : List SOp} {v : Verdict} (hm : m.Sound) (ht : p.Tame)
    (hp : p.careful F G false d.ty = true) (hd : m.Sane d) (h : MakeParserRun env p d m ops v) :
    Verdict.Clean m v := by
  have hc : (topParser p).Careful F G d.ty := elab_careful p (fun _ => rfl) ht hp trivial
  have h0 := construct_careful (σ := ContainerSeq) (env := env) (topParser p) d d
    ⟨ContainerSeq.make, m⟩ hm hc hd
  cases h with
  | construct h1 => rw [h1] at h0; exact h0
  | @run st w v h1 h2 =>
    rw [h1] at h0
    have hM : Made env F (topParser p) d m st w.mem := h0
    have := Session.careful he h2 ⟨hM.1, hc, hd.later hM.2.1, hM.2.2⟩
    cases v with
    | error e => exact this
    | ok x => exact ⟨this.1, hM.2.1.trans this.2⟩

theorem Parses.careful {env : Env} (he : env.Careful F G) {p : Pat} {d : Ref} {m : Mem}
    {t : List Ch} {v : Verdict} (hm : m.Sound) (ht : p.Tame)
    (hp : p.careful F G false d.ty = true) (hd : m.Sane d) (h : Parses env p d m t v) :
    Verdict.Clean m v := by
  have hc : (topParser p).Careful F G d.ty := elab_careful p (fun _ => rfl) ht hp trivial
  have h0 := construct_careful (σ := SingleForward) (env := env) (topParser p) d d
    ⟨SingleForward.make t, m⟩ hm hc hd
  have hrun : ∀ {st : PState} {w : World SingleForward Mem} {o},
      Abu.construct (topParser p) d d (⟨SingleForward.make t, m⟩ : World SingleForward Mem) =
        .ok (st, w) →
      Evals env (topParser p) d d st w o →
      Sober (fun x => Returned env F (topParser p) d w.mem x.1.1 x.1.2 x.2.mem) o ∧
        m.Later w.mem := by
    intro st w o h1 ho
    rw [h1] at h0
    have hM : Made env F (topParser p) d m st w.mem := h0
    obtain ⟨_, n, hn⟩ := ho
    rw [← hn]
    exact ⟨run_careful he n _ d d st w ⟨hM.1, hc, hd.later hM.2.1, hM.2.2⟩, hM.2.1⟩
  cases h with
  | construct h1 => rw [h1] at h0; exact h0
  | error h1 h2 => exact (hrun h1 h2).1
  | ok h1 h2 h3 =>
    obtain ⟨h4, h5⟩ := hrun h1 h2
    exact ⟨h4.1, h5.trans h4.2.1⟩

end Abu
