import Verif.Proofs.Rollback
import Verif.Proofs.CompatibleRun
import Verif.Proofs.FilledTop
/-
Values of the right types, continued: patterns and whole parses.
-/
namespace Abu

variable {N : NumKind → Prop} {G : Nat → Ty → Ty → Prop}

theorem adapt_into {sk raw a c} {B D : Ty} (hsk : sk.Into N G .nil .nil)
    (hc : raw.Into N G B (D.inner a)) : (adapt sk a c raw).Into N G B D := by
  have h1 : (if a = true then Prog.atomic raw else raw).Into N G B D := by
    cases a with
    | true => rw [if_pos rfl, Prog.Into]; exact hc
    | false => exact hc
  unfold adapt
  dsimp only
  generalize (if a = true then Prog.atomic raw else raw) = q at h1
  have h2 : (if c = true then Prog.clean q else q).Into N G B D := by
    cases c with
    | true => rw [if_pos rfl, Prog.Into]; exact h1
    | false => exact h1
  generalize (if c = true then Prog.clean q else q) = q2 at h2
  cases sk.isFail with
  | true => exact h2
  | false => show (Prog.skip sk q2).Into N G B D; rw [Prog.Into]; exact ⟨hsk, h2⟩

theorem skipper_into {sk : Prog} {r : Req} (h : sk.Into N G .nil .nil) :
    (r.skipper sk).Into N G .nil .nil := by
  unfold Req.skipper
  split
  · rw [Prog.Into]; trivial
  · exact h

/-- Patterns that are atomic by themselves. -/
theorem adapt_into_self {sk : Prog} {r : Req} {p : Pat} {raw c} {B D : Ty} (hr : r.Ok)
    (hp : p.ATOMIC = true) (hsk : sk.Into N G .nil .nil) (hc : raw.Into N G B D) :
    (adapt (r.skipper sk) (r.needsAtomic p) c raw).Into N G B D := by
  rw [needsAtomic_eq hr, hp, Bool.not_true, Bool.and_false]
  exact adapt_into (skipper_into hsk) hc

/-- Patterns that are not. -/
theorem adapt_into_buffered {sk : Prog} {r : Req} {p : Pat} {raw c} {B D : Ty} (hr : r.Ok)
    (hp : p.ATOMIC = false) (hsk : sk.Into N G .nil .nil) (hc : raw.Into N G B (D.inner r.ATOMIC)) :
    (adapt (r.skipper sk) (r.needsAtomic p) c raw).Into N G B D := by
  rw [needsAtomic_eq hr, hp, Bool.not_false, Bool.and_true]
  exact adapt_into (skipper_into hsk) hc

theorem fail_into {B D : Ty} : Prog.fail.Into N G B D := by rw [Prog.Into]; trivial

theorem elabPs_ne_nil {sk r} {ps : List Pat} (h : ps ≠ []) : elabPs sk r ps ≠ [] := by
  cases ps with
  | nil => exact absurd rfl h
  | cons p ps => rw [elabPs]; simp

theorem tupleSlots_ne_nil {n} {ps : List Pat} (h : ps ≠ []) : tupleSlots n ps ≠ [] := by
  cases ps with
  | nil => exact absurd rfl h
  | cons p ps => rw [tupleSlots]; split <;> simp

mutual
theorem elab_into {sk : Prog} {r : Req} {B D : Ty} : (p : Pat) → r.Ok →
    p.into N G r.ATOMIC B D → sk.Into N G .nil .nil → (elabP sk r p).Into N G B D
  | .char _, _, h, hsk => by
    rw [elabP]; rw [Pat.into] at h
    refine adapt_into (skipper_into hsk) ?_
    rw [Prog.Into]; exact h
  | .charSymbol _, _, h, hsk => by
    rw [elabP]; rw [Pat.into] at h
    refine adapt_into (skipper_into hsk) ?_
    rw [Prog.Into]; exact h
  | .strLit _, _, h, hsk => by
    rw [elabP]; rw [Pat.into] at h
    refine adapt_into (skipper_into hsk) ?_
    rw [Prog.Into]; exact h
  | .symbol _, _, h, hsk => by
    rw [elabP]; rw [Pat.into] at h
    refine adapt_into (skipper_into hsk) ?_
    rw [Prog.Into]; exact h
  | .eoi, _, h, hsk => by
    rw [elabP]; rw [Pat.into] at h
    refine adapt_into (skipper_into hsk) ?_
    rw [Prog.Into]; exact h
  | .pass, _, h, hsk => by
    rw [elabP]; rw [Pat.into] at h
    refine adapt_into (skipper_into hsk) ?_
    rw [Prog.Into]; exact h
  | .fail, _, h, hsk => by
    rw [elabP]; rw [Pat.into] at h
    refine adapt_into (skipper_into hsk) ?_
    rw [Prog.Into]; exact h
  | .int .., hr, h, hsk => by
    rw [elabP]; rw [Pat.into] at h
    refine adapt_into_buffered hr rfl hsk ?_
    rw [Prog.Into]; exact h
  | .uint .., hr, h, hsk => by
    rw [elabP]; rw [Pat.into] at h
    refine adapt_into_buffered hr rfl hsk ?_
    rw [Prog.Into]; exact h
  | .seq ps, hr, h, hsk => by
    rw [elabP]; rw [Pat.into] at h
    refine adapt_into_buffered hr rfl hsk ?_
    rw [Prog.Into]
    exact ⟨tupleSlots_ne_nil h.1, elabPs_ne_nil h.1, elabs_intoSlots 0 ps h.2 hsk⟩
  | .alt ps, hr, h, hsk => by
    rw [elabP]; rw [Pat.into] at h
    refine adapt_into_self hr rfl hsk ?_
    rw [Prog.Into]
    refine ⟨elabPs_ne_nil h.1, elabs_into ps (ok_of_not_recur rfl) ?_ hsk⟩
    show Pat.allInto N G (r.lower (.alt ps)).ATOMIC B D ps
    rw [lower_ATOMIC hr, show (Pat.alt ps).ATOMIC = true from rfl, Bool.and_true]
    exact h.2
  | .rep mn mx p, hr, h, hsk => by
    rw [elabP]; rw [Pat.into] at h
    refine adapt_into_buffered hr rfl hsk ?_
    rw [Prog.Into]
    exact elab_into p (ok_of_not_recur rfl) h hsk
  | .opt p, hr, h, hsk => by
    rw [elabP]; rw [Pat.into] at h
    refine adapt_into_self hr rfl hsk ?_
    rw [Prog.Into]
    exact elab_into p (ok_of_not_recur rfl) h hsk
  | .not p, hr, h, hsk => by
    rw [elabP]; rw [Pat.into] at h
    refine adapt_into_self hr rfl hsk ?_
    rw [Prog.Into]
    exact elab_into p (ok_of_not_recur rfl) h hsk
  | .discard p, hr, h, hsk => by
    rw [elabP]; rw [Pat.into] at h
    refine adapt_into_self hr rfl hsk ?_
    rw [Prog.Into]
    refine elab_into p (lower_ok hr _) ?_ hsk
    rw [lower_ATOMIC hr, show (Pat.discard p).ATOMIC = true from rfl, Bool.and_true]
    exact h
  | .lexeme p, hr, h, hsk => by
    rw [elabP]; rw [Pat.into] at h
    refine adapt_into_self hr rfl hsk ?_
    rw [Prog.Into]
    refine elab_into p (lower_ok hr _) ?_ fail_into
    rw [lower_ATOMIC hr, show (Pat.lexeme p).ATOMIC = true from rfl, Bool.and_true]
    exact h
  | .bindDst p, hr, h, hsk => by
    rw [elabP]; rw [Pat.into] at h
    refine adapt_into_buffered hr rfl hsk ?_
    rw [Prog.Into]
    exact elab_into p (ok_of_not_recur rfl) h hsk
  | .construct tys p, hr, h, hsk => by
    rw [elabP]; rw [Pat.into] at h
    refine adapt_into_self hr rfl hsk ?_
    rw [Prog.Into]
    exact ⟨elab_into p (ok_of_not_recur rfl) h.1 hsk, h.2⟩
  | .action a p, hr, h, hsk => by
    rw [elabP]; rw [Pat.into] at h
    refine adapt_into_self hr rfl hsk ?_
    rw [Prog.Into]
    exact ⟨elab_into p (ok_of_not_recur rfl) h.1 hsk, h.2⟩
  | .except op neg, hr, h, hsk => by
    rw [elabP]; rw [Pat.into] at h
    refine adapt_into_self hr rfl hsk ?_
    rw [Prog.Into]
    refine ⟨elab_into op (ok_of_not_recur rfl) ?_ hsk, elab_into neg (ok_of_not_recur rfl) h.2 hsk⟩
    show op.into N G (r.lower (.except op neg)).ATOMIC B D
    rw [lower_ATOMIC hr, show (Pat.except op neg).ATOMIC = true from rfl, Bool.and_true]
    exact h.1
  | .list op sep, hr, h, hsk => by
    rw [elabP]; rw [Pat.into] at h
    refine adapt_into_buffered hr rfl hsk ?_
    rw [Prog.Into]
    exact ⟨elab_into op (ok_of_not_recur rfl) h.1 hsk, elab_into sep (ok_of_not_recur rfl) h.2 hsk⟩
  | .withSkipper p s, hr, h, hsk => by
    rw [Pat.into] at h
    rw [elabP, needsAtomic_eq hr, show (Pat.withSkipper p s).ATOMIC = p.ATOMIC by rw [Pat.ATOMIC]]
    refine adapt_into (skipper_into hsk) ?_
    rw [Prog.Into]
    refine elab_into p (lower_ok hr _) ?_ (elab_into s (ok_of_not_recur rfl) h.2 fail_into)
    rw [lower_ATOMIC hr, show (Pat.withSkipper p s).ATOMIC = p.ATOMIC by rw [Pat.ATOMIC]]
    exact h.1
  | .recur id n, hr, h, hsk => by
    rw [elabP]; rw [Pat.into] at h
    refine adapt_into_buffered hr rfl hsk ?_
    rw [Prog.Into]
    exact ⟨h, hsk⟩
theorem elabs_into {sk : Prog} {r : Req} {B D : Ty} : (ps : List Pat) → r.Ok →
    Pat.allInto N G r.ATOMIC B D ps → sk.Into N G .nil .nil →
    Prog.AllInto N G B D (elabPs sk r ps)
  | [], _, _, _ => by rw [elabPs, Prog.AllInto]; trivial
  | p :: ps, hr, h, hsk => by
    rw [Pat.allInto] at h
    rw [elabPs, Prog.AllInto]
    exact ⟨elab_into p hr h.1 hsk, elabs_into ps hr h.2 hsk⟩
theorem elabs_intoSlots {sk : Prog} {B D : Ty} : (n : Nat) → (ps : List Pat) →
    Pat.intoSlots N G B D n ps → sk.Into N G .nil .nil →
    Prog.IntoSlots N G B D (tupleSlots n ps) (elabPs sk ⟨false, false, false, false⟩ ps)
  | _, [], _, _ => by rw [elabPs, tupleSlots]; simp [Prog.IntoSlots]
  | n, p :: ps, h, hsk => by
    rw [tupleSlots, elabPs]
    rw [Pat.intoSlots] at h
    cases hb : p.dstBehavior with
    | IGNORE =>
      rw [valued_of_ignore hb, if_neg (by decide)] at h
      dsimp only
      rw [Prog.IntoSlots]
      exact ⟨⟨.nil, by cases D <;> rfl, elab_into p (ok_of_not_recur rfl) h.1 hsk⟩,
        elabs_intoSlots n ps h.2 hsk⟩
    | VALUE =>
      rw [valued_of_value hb, if_pos rfl] at h
      dsimp only
      rw [Prog.IntoSlots]
      refine ⟨?_, elabs_intoSlots (n + 1) ps h.2 hsk⟩
      obtain ⟨⟨t, ht, h1⟩, _⟩ := h
      exact ⟨t, by rw [← ht]; cases D <;> rfl, elab_into p (ok_of_not_recur rfl) h1 hsk⟩
end

/-! ### Runs -/

section
variable {σ : Type} [DataSource σ] {env : Env}

theorem run_fit (he : env.Into N G) : ∀ (n : Nat) (p : Prog) (d b : Ref) (st : PState)
    (w : World σ Mem) (Δ : List Ty), Admits N G env p d b st Δ w.mem →
    Fit N (fun x => ∃ Δ', Gave env p d Δ x.1.1 x.1.2 Δ' x.2.mem) (run env n p d b st w)
  | 0, _, _, _, _, _, _, _ => allowed_fuel
  | n + 1, p, d, b, st, w, Δ, h => by
    have hb := exec_fit (run_fit he n) _ (body_fit (fun id B D hG => by
      obtain ⟨q, hq, h1⟩ := he id B D hG
      exact ⟨q, hq, fun sk hsk => elab_into q (fun _ => rfl) h1 hsk⟩) h)
    rw [run]
    cases hx : exec (run env n) (body env p d b st) w with
    | error e => rw [hx] at hb; exact hb
    | ok x =>
      obtain ⟨s, w'⟩ := x
      rw [hx] at hb
      obtain ⟨Δ', hb⟩ := hb
      cases s with
      | ret r st' => exact ⟨Δ', hb⟩
      | cont st' =>
        have hM : NewFit env p d.ty Δ st' Δ' w'.mem := hb
        refine (run_fit he n p d b st' w' Δ' ⟨hM.1, h.2.1, h.2.2.1.later hM.2.1,
          h.2.2.2.1.later hM.2.1, hM.2.2⟩).imp ?_
        rintro x ⟨Δ'', hR⟩
        exact ⟨Δ'', hR.1, hM.2.1.trans hR.2.1, hR.2.2⟩

theorem construct_fit (p : Prog) (d b : Ref) (w : World σ Mem) (Δ : List Ty) (hm : w.mem.Typed Δ)
    (hp : p.Into N G b.ty d.ty) (hd : d.Typed Δ) (hb : b.Typed Δ) :
    Fit N (fun x => ∃ Δ', NewFit env p d.ty Δ x.1 Δ' x.2.mem) (construct p d b w) := by
  have : ∀ {α : Type} {Q : α → List Ty → Mem → Prop} (c : Cmd α), ∀ {w : World σ Mem} {Δ : List Ty},
      c.Fit N G env Q Δ w.mem →
      Fit N (fun x => ∃ Δ', Q x.1 Δ' x.2.mem)
        (exec (fun _ _ _ _ _ => .error .stuck) c w) := by
    intro α Q c
    refine exec_fit ?_ c; intro _ _ _ _ _ _ _; exact allowed_stuck
  exact this _ (mk_fit p d b Δ w.mem hm hp hd hb)

/-- What the user sees. -/
def Verdict.Fit (N : NumKind → Prop) (Δ : List Ty) : Verdict → Prop
  | .error e => e.Allowed N
  | .ok (_, m', _) => ∃ Δ', m'.Typed Δ' ∧ Δ <+: Δ'

theorem Session.fit (he : env.Into N G) {add : σ → List Ch → Bool → Option σ} {p : Prog}
    {d : Ref} {st : PState} {w : World σ Mem} {ops : List SOp} {v : Verdict}
    (h : Session add env p d st w ops v) {Δ : List Ty} (hc : Admits N G env p d d st Δ w.mem) :
    v.Fit N Δ := by
  have hrun : ∀ {st : PState} {w : World σ Mem} {o} {Δ}, Evals env p d d st w o →
      Admits N G env p d d st Δ w.mem →
      Fit N (fun x => ∃ Δ', Gave env p d Δ x.1.1 x.1.2 Δ' x.2.mem) o := by
    intro st w o Δ ho hc
    obtain ⟨_, n, hn⟩ := ho
    rw [← hn]
    exact run_fit he n p d d st w Δ hc
  induction h generalizing Δ with
  | nil _ => exact ⟨Δ, hc.1, List.prefix_refl _⟩
  | addBad _ => exact allowed_data
  | add _ _ ih => exact ih hc
  | error h1 => exact hrun h1 hc
  | verdict h1 _ _ =>
    obtain ⟨Δ', hR⟩ := hrun h1 hc
    exact ⟨Δ', hR.1, hR.2.1⟩
  | @more st w ops st' w' v h1 _ ih =>
    obtain ⟨Δ', hR⟩ : ∃ Δ', Gave env p d Δ .PARTIAL st' Δ' w'.mem := hrun h1 hc
    have := ih (Δ := Δ') ⟨hR.1, hc.2.1, hc.2.2.1.later hR.2.1, hc.2.2.2.1.later hR.2.1, hR.2.2 rfl⟩
    cases v with
    | error e => exact this
    | ok x =>
      obtain ⟨Δ'', h2, h3⟩ := this
      exact ⟨Δ'', h2, hR.2.1.trans h3⟩

end

theorem MakeParserRun.fit {env : Env} (he : env.Into N G) {p : Pat} {d : Ref} {m : Mem}
    {ops : List SOp} {v : Verdict} {Δ : List Ty} (hm : m.Typed Δ) (hd : d.Typed Δ)
    (hp : p.into N G false d.ty d.ty) (h : MakeParserRun env p d m ops v) : v.Fit N Δ := by
  have hc : (topParser p).Into N G d.ty d.ty := elab_into p (fun _ => rfl) hp fail_into
  have h0 := construct_fit (σ := ContainerSeq) (env := env) (topParser p) d d
    ⟨ContainerSeq.make, m⟩ Δ hm hc hd hd
  cases h with
  | construct h1 => rw [h1] at h0; exact h0
  | @run st w v h1 h2 =>
    rw [h1] at h0
    obtain ⟨Δ', hM⟩ : ∃ Δ', NewFit env (topParser p) d.ty Δ st Δ' w.mem := h0
    have := Session.fit he h2 (Δ := Δ') ⟨hM.1, hc, hd.later hM.2.1, hd.later hM.2.1, hM.2.2⟩
    cases v with
    | error e => exact this
    | ok x =>
      obtain ⟨Δ'', h2, h3⟩ := this
      exact ⟨Δ'', h2, hM.2.1.trans h3⟩

theorem Parses.fit {env : Env} (he : env.Into N G) {p : Pat} {d : Ref} {m : Mem}
    {t : List Ch} {v : Verdict} {Δ : List Ty} (hm : m.Typed Δ) (hd : d.Typed Δ)
    (hp : p.into N G false d.ty d.ty) (h : Parses env p d m t v) : v.Fit N Δ := by
  have hc : (topParser p).Into N G d.ty d.ty := elab_into p (fun _ => rfl) hp fail_into
  have h0 := construct_fit (σ := SingleForward) (env := env) (topParser p) d d
    ⟨SingleForward.make t, m⟩ Δ hm hc hd hd
  have hrun : ∀ {st : PState} {w : World SingleForward Mem} {o},
      Abu.construct (topParser p) d d (⟨SingleForward.make t, m⟩ : World SingleForward Mem) =
        .ok (st, w) →
      Evals env (topParser p) d d st w o →
      ∃ Δ', Δ <+: Δ' ∧
        Fit N (fun x => ∃ Δ'', Gave env (topParser p) d Δ' x.1.1 x.1.2 Δ'' x.2.mem) o := by
    intro st w o h1 ho
    rw [h1] at h0
    obtain ⟨Δ', hM⟩ : ∃ Δ', NewFit env (topParser p) d.ty Δ st Δ' w.mem := h0
    obtain ⟨_, n, hn⟩ := ho
    rw [← hn]
    exact ⟨Δ', hM.2.1, run_fit he n _ d d st w Δ' ⟨hM.1, hc, hd.later hM.2.1, hd.later hM.2.1, hM.2.2⟩⟩
  cases h with
  | construct h1 => rw [h1] at h0; exact h0
  | error h1 h2 => obtain ⟨Δ', _, h4⟩ := hrun h1 h2; exact h4
  | ok h1 h2 h3 =>
    obtain ⟨Δ', h4, Δ'', h5⟩ := hrun h1 h2
    exact ⟨Δ'', h5.1, h4.trans h5.2.1⟩

section
variable {σ : Type} [DataSource σ] {μ : Type} [Store μ]
  {call : Prog → Ref → Ref → PState → World σ μ → Out σ μ (Res × PState)}

theorem bind_notFuel {α β : Type} {c : Cmd α} {f : α → Cmd β} {w : World σ μ}
    (h1 : exec call c w ≠ .error .fuel) (h2 : ∀ a w, exec call (f a) w ≠ .error .fuel) :
    exec call (c.bind f) w ≠ .error .fuel := by
  rw [exec_bind]
  cases h : exec call c w with
  | error e => rintro ⟨⟩; exact h1 h
  | ok x => exact h2 _ _

theorem mem_notFuel (hμ : ∀ (o : MemOp) (m : μ), Store.op o m ≠ .error .fuel) {o} {s : PState}
    {w : World σ μ} : exec call (.mem o (.pure s)) w ≠ .error .fuel := by
  simp only [exec]
  cases h : Store.op o w.mem with
  | error e => rintro ⟨⟩; exact hμ _ _ h
  | ok x => simp

/-- Constructors do not loop. -/
theorem mk_notFuel (hμ : ∀ (o : MemOp) (m : μ), Store.op o m ≠ .error .fuel) (p : Prog) :
    ∀ dst bnd (w : World σ μ), exec call (mk p dst bnd) w ≠ .error .fuel := by
  intro dst bnd
  fun_induction mk p dst bnd
  all_goals intro w
  all_goals first
    | exact mem_notFuel hμ
    | (simp [exec]; done)
    | (rename_i ih; exact bind_notFuel (ih _) fun _ _ => by simp [exec])
    | (rename_i ih; exact bind_notFuel (w := ⟨w.ds, _⟩) (ih _ _) fun _ _ => by simp [exec])
    | (rename_i ih1 ih2
       exact bind_notFuel (ih1 _) fun _ _ => bind_notFuel (ih2 _) fun _ _ => by simp [exec])

end

theorem mem_op_notFuel (o : MemOp) (m : Mem) : Store.op o m ≠ .error .fuel := by
  intro h
  cases mem_ofMem (o := o) (m := m) h

theorem construct_notFuel {σ : Type} [DataSource σ] {p d b} {w : World σ Mem} : construct p d b w ≠ .error .fuel :=
  mk_notFuel mem_op_notFuel _ _ _ _

theorem Parses.not_fuel {env : Env} {p d m t e} (h : Parses env p d m t (.error e)) : e ≠ .fuel := by
  rintro rfl
  cases h with
  | construct h => exact construct_notFuel h
  | error _ h => exact h.1 rfl

theorem Session.not_fuel {σ : Type} [DataSource σ] {add : σ → List Ch → Bool → Option σ} {env : Env} {p d st}
    {w : World σ Mem} {ops v} (h : Session add env p d st w ops v) : v ≠ .error .fuel := by
  induction h <;> simp_all [Evals]

theorem MakeParserRun.not_fuel {env : Env} {p d m ops e}
    (h : MakeParserRun env p d m ops (.error e)) : e ≠ .fuel := by
  rintro rfl
  cases h with
  | construct h => exact construct_notFuel h
  | run _ h => exact h.not_fuel rfl

end Abu
