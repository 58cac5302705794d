import Verif.Spec.Buffers
import Verif.Proofs.Rollback
import Verif.Proofs.Session
import Verif.Proofs.Apply
/-
Which buffers a parser object keeps.
-/
namespace Abu

/-! ### Parsers without rollback points -/

mutual
/-- No rollback point is ever created. -/
def Prog.markless : Prog → Bool
  | .symbol _ => false
  | .seq _ ps => Prog.marklessAll ps
  | .alt ps => Prog.marklessAll ps
  | .rep _ _ p => p.markless
  | .opt _ => false
  | .not _ => false
  | .discard p => p.markless
  | .lexeme p => p.markless
  | .bindDst p => p.markless
  | .construct _ p => p.markless
  | .action _ p => p.markless
  | .except op neg => op.markless && neg.markless
  | .list _ _ => false
  | .withSkipper p => p.markless
  | .recur _ sk => sk.markless
  | .atomic p => p.markless
  | .clean _ => false
  | .skip s p => s.markless && p.markless
  | _ => true
/-- The same for all children. -/
def Prog.marklessAll : List Prog → Bool
  | [] => true
  | p :: ps => p.markless && Prog.marklessAll ps
end

theorem marklessAll_get {ps : List Prog} (h : Prog.marklessAll ps = true) {i : Nat} {p : Prog}
    (hp : ps[i]? = some p) :
    p.markless = true := by
  induction ps generalizing i with
  | nil => simp at hp
  | cons q ps ih =>
    simp only [Prog.marklessAll, Bool.and_eq_true] at h
    cases i with
    | zero => simp at hp; subst hp; exact h.1
    | succ i => exact ih h.2 (by simpa using hp)

/-- The command never touches rollback points, and calls markless parsers only. -/
inductive Markless {α : Type} : Cmd α → Prop
  | pure {a} : Markless (.pure a)
  | fault {e} : Markless (.fault e)
  | isEmpty {k} : (∀ b, Markless (k b)) → Markless (.isEmpty k)
  | isFinal {k} : (∀ b, Markless (k b)) → Markless (.isFinal k)
  | next {k} : (∀ c, Markless (k c)) → Markless (.next k)
  | advance {k} : Markless k → Markless (.advance k)
  | mem {o k} : Markless k → Markless (.mem o k)
  | alloc {t k} : (∀ r, Markless (k r)) → Markless (.alloc t k)
  | call {p d b s k} : p.markless = true → (∀ r s', Markless (k r s')) → Markless (.call p d b s k)

theorem Markless.bind {α β : Type} {c : Cmd α} {f : α → Cmd β} (h : Markless c) (hf : ∀ a, Markless (f a)) :
    Markless (c.bind f) := by
  induction h with
  | pure => exact hf _
  | fault => exact .fault
  | isEmpty _ ih => exact .isEmpty ih
  | isFinal _ ih => exact .isFinal ih
  | next _ ih => exact .next ih
  | advance _ ih => exact .advance ih
  | mem _ ih => exact .mem ih
  | alloc _ ih => exact .alloc ih
  | call hc _ ih => exact .call hc ih

theorem mk_markless (p dst bnd) (h : p.markless = true) : Markless (mk p dst bnd) := by
  fun_induction mk p dst bnd
  all_goals try simp only [Prog.markless, Prog.marklessAll, Bool.and_eq_true] at h
  all_goals first
    | exact .pure
    | exact .fault
    | exact .mem .pure
    | (cases h; done)
    | (rename_i ih; exact (ih h).bind fun _ => .pure)
    | (rename_i ih; exact (ih h.1).bind fun _ => .pure)
    | (rename_i ih; exact (ih h.2).bind fun _ => .pure)
    | (rename_i ih; exact .alloc fun r => (ih r h).bind fun _ => .pure)
    | (rename_i ih1 ih2; exact (ih1 h.1).bind fun _ => (ih2 h.2).bind fun _ => .pure)

theorem guarded_markless {st : PState} {A : Cmd Step} {B : Ch → Cmd Step}
    (hA : Markless A) (hB : ∀ c, Markless (B c)) : Markless (guarded st A B) := by
  unfold guarded
  refine .isEmpty fun e => ?_
  split
  · refine .isFinal fun f => ?_
    split
    · exact hA
    · exact .pure
  · exact .next hB

/-- The patterns used through `Recur` are markless, in the context of any such skipper. -/
def Env.markless (env : Env) : Prop :=
  ∀ id q sk, env id = some q → sk.markless = true → (elabP sk RecurChildReqs q).markless = true

theorem body_markless {env : Env} (henv : env.markless) (p dst bnd st) (h : p.markless = true) :
    Markless (body env p dst bnd st) := by
  unfold body
  split
  all_goals try simp only [Prog.markless, Bool.and_eq_true] at h
  all_goals try (cases h; done)
  all_goals try unfold negIf
  all_goals repeat' first
    | exact .pure
    | exact .fault
    | exact .call h fun r s' => .pure
    | refine .advance ?_
    | refine .mem ?_
    | refine Markless.bind (mk_markless _ _ _ (by
        first
        | assumption | exact h.1 | exact h.2 | exact marklessAll_get h ‹_›
        | exact henv _ _ _ ‹_› h)) fun _ => ?_
    | refine .call (by
        first
        | assumption | exact h.1 | exact h.2 | exact marklessAll_get h ‹_›
        | exact henv _ _ _ ‹_› h) fun r s' => ?_
    | refine guarded_markless ?_ fun c => ?_
    | split
    | dsimp only

section
variable {μ : Type} [Store μ]

/-- The rollback points are as before. -/
def Out.Unmarked {α : Type} (S : List Nat) : Out Cursor μ α → Prop
  | .error _ => True
  | .ok (_, w) => w.ds.saved = S

theorem exec_markless {call} (h : ∀ p d b st (w : World Cursor μ), p.markless = true →
      Out.Unmarked w.ds.saved (call p d b st w)) {α : Type} {x : Cmd α} (hx : Markless x)
    (w : World Cursor μ) : Out.Unmarked w.ds.saved (exec call x w) := by
  induction hx generalizing w with
  | pure => rfl
  | fault => trivial
  | isEmpty _ ih => exact ih _ w
  | isFinal _ ih => exact ih _ w
  | next _ ih =>
    simp only [exec]; split
    · trivial
    · exact ih _ w
  | advance _ ih =>
    simp only [exec]; split
    · trivial
    · rename_i ds hds
      have : (if w.ds.pos < w.ds.text.length then some { w.ds with pos := w.ds.pos + 1 }
        else none) = some ds := hds
      split at this
      · cases this; exact ih ⟨_, w.mem⟩
      · cases this
  | mem _ ih =>
    simp only [exec]; split
    · trivial
    · exact ih ⟨w.ds, _⟩
  | alloc _ ih => exact ih _ ⟨w.ds, _⟩
  | @call p d b s k hp _ ih =>
    have h1 := h p d b s w hp
    simp only [exec]
    cases hc : call p d b s w with
    | error e => trivial
    | ok y =>
      obtain ⟨⟨r, s'⟩, w'⟩ := y
      rw [hc] at h1
      have h2 : w'.ds.saved = w.ds.saved := h1
      rw [← h2]
      exact ih r s' w'

theorem run_markless {env : Env} (henv : env.markless) (n : Nat) (p dst bnd st) (w : World Cursor μ)
    (h : p.markless = true) : Out.Unmarked w.ds.saved (run env n p dst bnd st w) := by
  induction n generalizing p dst bnd st w with
  | zero => trivial
  | succ n ih =>
    have h1 := exec_markless (fun p d b st w h => ih p d b st w h) (body_markless henv p dst bnd st h) w
    rw [run_succ_andThen]
    generalize exec (run env n) (body env p dst bnd st) w = x at h1 ⊢
    cases x with
    | error e => trivial
    | ok y =>
      obtain ⟨s, w'⟩ := y
      cases s with
      | ret r st' => exact h1
      | cont st' =>
        have h2 : w'.ds.saved = w.ds.saved := h1
        rw [← h2]
        exact ih _ _ _ _ w' h

theorem construct_markless (p dst bnd) (w : World Cursor μ) (h : p.markless = true) :
    Out.Unmarked w.ds.saved (construct p dst bnd w) :=
  exec_markless (call := fun _ _ _ _ _ => .error .stuck) (fun _ _ _ _ _ _ => trivial)
    (mk_markless p dst bnd h) w

end

/-! ### Patterns that stream have markless parsers -/

theorem adapt_markless {sk : Prog} {a c : Bool} {raw : Prog} (hs : sk.markless = true) (hc : c = false)
    (hr : raw.markless = true) : (adapt sk a c raw).markless = true := by
  subst hc
  unfold adapt
  cases a <;> simp only [Bool.false_eq_true, if_false, if_true] <;> split <;>
    simp_all [Prog.markless]

theorem streams_clean : ∀ {p : Pat} {r : Req}, p.streams r.FAILS_CLEANLY = true →
    r.needsClean p = false
  | .withSkipper p s, r, h => by
    simp only [Pat.streams, Bool.and_eq_true] at h
    simpa [Req.needsClean, Pat.FAILS_CLEANLY] using streams_clean h.1
  | .char _, r, h | .charSymbol _, r, h | .strLit _, r, h | .symbol _, r, h | .int .., r, h
  | .uint .., r, h | .eoi, r, h | .pass, r, h | .fail, r, h | .seq _, r, h | .alt _, r, h
  | .rep .., r, h | .opt _, r, h | .not _, r, h | .discard _, r, h | .lexeme _, r, h
  | .bindDst _, r, h | .construct .., r, h | .action .., r, h | .except .., r, h
  | .list .., r, h | .recur .., r, h => by
    simp only [Pat.streams, Bool.and_eq_true, Bool.or_eq_true, Bool.not_eq_true'] at h
    simp only [Req.needsClean, Pat.FAILS_CLEANLY]
    first
    | (cases h; done)
    | (simp [h]; done)
    | (cases hf : r.FAILS_CLEANLY <;> simp_all)

theorem streams_lower {p : Pat} {r : Req} (h : p.streams r.FAILS_CLEANLY = true) :
    (r.lower p).FAILS_CLEANLY = r.FAILS_CLEANLY := by
  unfold Req.lower
  split
  · rfl
  · simp [streams_clean h]

theorem skipper_markless {r : Req} {sk : Prog} (h : sk.markless = true) : (r.skipper sk).markless = true := by
  unfold Req.skipper
  split
  · rfl
  · exact h

mutual
theorem elab_markless : ∀ (p : Pat) {r : Req} {K : Prog}, K.markless = true →
    p.streams r.FAILS_CLEANLY = true → (elabP K r p).markless = true
  | .char s, r, K, hK, h => adapt_markless (skipper_markless hK) rfl rfl
  | .charSymbol s, r, K, hK, h => adapt_markless (skipper_markless hK) rfl rfl
  | .strLit s, r, K, hK, h => adapt_markless (skipper_markless hK) (streams_clean h) rfl
  | .symbol s, r, K, hK, h => by simp [Pat.streams] at h
  | .int .., r, K, hK, h => adapt_markless (skipper_markless hK) (streams_clean h) rfl
  | .uint .., r, K, hK, h => adapt_markless (skipper_markless hK) (streams_clean h) rfl
  | .eoi, r, K, hK, h => adapt_markless (skipper_markless hK) rfl rfl
  | .pass, r, K, hK, h => adapt_markless (skipper_markless hK) rfl rfl
  | .fail, r, K, hK, h => adapt_markless (skipper_markless hK) rfl rfl
  | .seq ps, r, K, hK, h => by
    rw [elabP]
    refine adapt_markless (skipper_markless hK) (streams_clean h) ?_
    simp only [Pat.streams, Bool.and_eq_true] at h
    exact elabs_markless ps hK h.2
  | .alt ps, r, K, hK, h => by
    rw [elabP]
    refine adapt_markless (skipper_markless hK) (streams_clean h) ?_
    simp only [Pat.streams] at h
    exact elabs_markless ps hK h
  | .rep mn mx p, r, K, hK, h => by
    rw [elabP]
    refine adapt_markless (skipper_markless hK) (streams_clean h) ?_
    simp only [Pat.streams, Bool.and_eq_true] at h
    exact elab_markless p hK h.2
  | .opt p, r, K, hK, h => by simp [Pat.streams] at h
  | .not p, r, K, hK, h => by simp [Pat.streams] at h
  | .discard p, r, K, hK, h => by
    rw [elabP]
    refine adapt_markless (skipper_markless hK) (streams_clean h) ?_
    have e := streams_lower h
    simp only [Pat.streams] at h
    exact elab_markless p hK (by rw [e]; exact h)
  | .lexeme p, r, K, hK, h => by
    rw [elabP]
    refine adapt_markless (skipper_markless hK) (streams_clean h) ?_
    have e := streams_lower h
    simp only [Pat.streams] at h
    exact elab_markless p rfl (by rw [e]; exact h)
  | .bindDst p, r, K, hK, h => by
    rw [elabP]
    refine adapt_markless (skipper_markless hK) (streams_clean h) ?_
    have e := streams_lower h
    simp only [Pat.streams] at h
    exact elab_markless p hK (by rw [← e] at h; exact h)
  | .construct tys p, r, K, hK, h => by
    rw [elabP]
    refine adapt_markless (skipper_markless hK) (streams_clean h) ?_
    have e := streams_lower h
    simp only [Pat.streams] at h
    exact elab_markless p hK (by rw [← e] at h; exact h)
  | .action a p, r, K, hK, h => by
    rw [elabP]
    refine adapt_markless (skipper_markless hK) (streams_clean h) ?_
    have e := streams_lower h
    simp only [Pat.streams] at h
    exact elab_markless p hK (by rw [← e] at h; exact h)
  | .except op neg, r, K, hK, h => by
    rw [elabP]
    refine adapt_markless (skipper_markless hK) (streams_clean h) ?_
    simp only [Pat.streams, Bool.and_eq_true] at h
    simp only [Prog.markless, Bool.and_eq_true]
    exact ⟨elab_markless op hK h.1.2, elab_markless neg hK h.2⟩
  | .list op sep, r, K, hK, h => by simp [Pat.streams] at h
  | .withSkipper p s, r, K, hK, h => by
    rw [elabP]
    refine adapt_markless (skipper_markless hK) (streams_clean h) ?_
    have e := streams_lower h
    simp only [Pat.streams, Bool.and_eq_true] at h
    exact elab_markless p (elab_markless s rfl h.2) (by rw [e]; exact h.1)
  | .recur id n, r, K, hK, h => by
    rw [elabP]
    exact adapt_markless (skipper_markless hK) (streams_clean h) hK
theorem elabs_markless : ∀ (ps : List Pat) {r : Req} {K : Prog}, K.markless = true →
    Pat.streamsAll r.FAILS_CLEANLY ps = true → Prog.marklessAll (elabPs K r ps) = true
  | [], r, K, hK, h => rfl
  | p :: ps, r, K, hK, h => by
    simp only [Pat.streamsAll, Bool.and_eq_true] at h
    simp only [elabPs, Prog.marklessAll, Bool.and_eq_true]
    exact ⟨elab_markless p hK h.1, elabs_markless ps hK h.2⟩
end

theorem Env.streams.markless {env : Env} (h : env.streams) : env.markless :=
  fun id q _ hq hs => elab_markless q hs (h id q hq)

/-! ### Driving a parser object -/

theorem ContainerSeq.dsSimOf (hs : List (List Ch)) : DsSim (ContainerSeq.Sim hs) where
  empty := fun h => h.empty_eq
  final := fun h => h.final_eq
  next := fun h => h.next_eq
  advance := fun h => h.advance_rel
  prepare := fun h => h.prepare
  commit := fun h => h.commit_rel
  cancel := fun h => h.cancel_rel

theorem opsBuffers_append (l m : List SOp) : opsBuffers (l ++ m) = opsBuffers l ++ opsBuffers m := by
  induction l with
  | nil => rfl
  | cons op l ih =>
    cases op with
    | add b f => simp only [List.cons_append, opsBuffers, ih]; split <;> simp
    | consume => simpa [opsBuffers] using ih

theorem opsBuffers_flatten (ops : List SOp) : (opsBuffers ops).flatten = opsText ops := by
  induction ops with
  | nil => rfl
  | cons op ops ih =>
    cases op with
    | add b f => simp only [opsBuffers, opsText]; split <;> simp_all
    | consume => simpa [opsBuffers, opsText] using ih

/-- The same on the plain cursor. -/
theorem Driven.cursor {env p dst m ops r st} {w : World ContainerSeq Mem}
    (h : Driven ContainerSeq.addBuffer ContainerSeq.make env p dst m ops r st w) :
    ∃ c, ContainerSeq.Sim (opsBuffers ops) w.ds c ∧
      Driven Cursor.addBuffer Cursor.start env p dst m ops r st ⟨c, w.mem⟩ := by
  induction h with
  | @made st w h =>
    have hsim := construct_sim (ContainerSeq.dsSimOf []) p dst dst m ContainerSeq.sim_make
    rw [h] at hsim
    generalize hy : construct p dst dst (⟨Cursor.start, m⟩ : World Cursor Mem) = y at hsim
    cases hsim with
    | ok _ hr => exact ⟨_, hr, .made hy⟩
  | @add ops r st w ds b f _ ha ih =>
    obtain ⟨c, hc, hd⟩ := ih
    cases hf : c.final with
    | true => rw [ContainerSeq.addBuffer_final hc b f hf] at ha; cases ha
    | false =>
      obtain ⟨s', e, hs'⟩ := hc.addBuffer b f hf
      rw [e] at ha; cases ha
      refine ⟨c.feed b f, ?_, .add b f hd (by simp [Cursor.addBuffer, hf])⟩
      rw [opsBuffers_append]
      have : opsBuffers [SOp.add b f] = if b = [] then [] else [b] := rfl
      rw [this]
      split
      · rename_i hb; simpa [hb] using hs'
      · rename_i hb; simpa [hb] using hs'
  | @consume ops r st w r' st' w' _ hr he ih =>
    obtain ⟨c, hc, hd⟩ := ih
    obtain ⟨o', ho', hrel⟩ := Evals.sim (s := w.ds) (m := w.mem) (ContainerSeq.dsSimOf _) he hc
    cases hrel with
    | ok _ hr' =>
      refine ⟨_, ?_, .consume hd hr ho'⟩
      rw [opsBuffers_append]
      simpa [opsBuffers] using hr'

/-- And back. -/
theorem Driven.container {env p dst m ops r st} {w : World Cursor Mem}
    (h : Driven Cursor.addBuffer Cursor.start env p dst m ops r st w) :
    ∃ s, ContainerSeq.Sim (opsBuffers ops) s w.ds ∧
      Driven ContainerSeq.addBuffer ContainerSeq.make env p dst m ops r st ⟨s, w.mem⟩ := by
  induction h with
  | @made st w h =>
    have hsim := construct_sim (ContainerSeq.dsSimOf []) p dst dst m ContainerSeq.sim_make
    rw [h] at hsim
    generalize hy : construct p dst dst (⟨ContainerSeq.make, m⟩ : World ContainerSeq Mem) = y at hsim
    cases hsim with
    | ok _ hr => exact ⟨_, hr, .made hy⟩
  | @add ops r st w ds b f _ ha ih =>
    obtain ⟨s, hc, hd⟩ := ih
    unfold Cursor.addBuffer at ha
    split at ha
    · cases ha
    · rename_i hf
      cases ha
      obtain ⟨s', e, hs'⟩ := hc.addBuffer b f (by simpa using hf)
      refine ⟨s', ?_, .add b f hd e⟩
      rw [opsBuffers_append]
      have : opsBuffers [SOp.add b f] = if b = [] then [] else [b] := rfl
      rw [this]
      split
      · rename_i hb; simpa [hb] using hs'
      · rename_i hb; simpa [hb] using hs'
  | @consume ops r st w r' st' w' _ hr he ih =>
    obtain ⟨s, hc, hd⟩ := ih
    obtain ⟨o', ho', hrel⟩ := Evals.sim' (m := w.mem) (ContainerSeq.dsSimOf _) he hc
    cases hrel with
    | ok _ hr' =>
      refine ⟨_, ?_, .consume hd hr ho'⟩
      rw [opsBuffers_append]
      simpa [opsBuffers] using hr'

theorem Driven.text {env p dst m ops r st} {w : World Cursor Mem}
    (h : Driven Cursor.addBuffer Cursor.start env p dst m ops r st w) : w.ds.Inside := by
  induction h with
  | @made st w h =>
    have := construct_inside p dst dst (⟨Cursor.start, m⟩ : World Cursor Mem)
      ⟨by simp [Cursor.start], by simp [Cursor.start]⟩
    rw [h] at this
    exact this
  | @add ops r st w ds b f _ ha ih =>
    unfold Cursor.addBuffer at ha
    split at ha
    · cases ha
    · cases ha; exact ih.feed b f
  | consume _ _ he ih => exact he.inside ih

/-- A parser without rollback points never has rollback points. -/
theorem Driven.unmarked {env : Env} (henv : env.markless) {p dst m ops r st} {w : World Cursor Mem}
    (hp : p.markless = true)
    (h : Driven Cursor.addBuffer Cursor.start env p dst m ops r st w) : w.ds.saved = [] := by
  induction h with
  | @made st w h =>
    have := construct_markless p dst dst (⟨Cursor.start, m⟩ : World Cursor Mem) hp
    rw [h] at this
    exact this
  | @add ops r st w ds b f _ ha ih =>
    unfold Cursor.addBuffer at ha
    split at ha
    · cases ha
    · cases ha; exact ih
  | @consume ops r st w r' st' w' _ _ he ih =>
    obtain ⟨_, n, hn⟩ := he
    have := run_markless henv n p dst dst st w hp
    rw [hn] at this
    have h2 : w'.ds.saved = w.ds.saved := this
    rw [h2, ih]

/-- Without rollback points only buffers with unread text are held. -/
theorem held_of_unmarked {ops : List SOp} {s : ContainerSeq} {c : Cursor} {rest}
    (h : ContainerSeq.Sim (opsBuffers ops) s c) (hi : c.Inside) (hs : c.saved = [])
    (hr : Reads s rest) :
    s.buffers.map Buffer.data
      = neededFrom ((opsText ops).length - rest.length) (opsBuffers ops) := by
  have h1 := (ContainerSeq.dsSimOf _).reads' h hr
  have h2 := h1.unique c.reads_drop
  have h3 := h.retained
  have h4 := h.text
  rw [opsBuffers_flatten] at h4
  have : c.oldest = (opsText ops).length - rest.length := by
    have := hi.1
    rw [h2, ← h4]
    simp [Cursor.oldest, hs]; omega
  rw [← this]
  exact h3

/-- The parser object against one use of it on a complete text. -/
structure Caught (env : Env) (p : Prog) (dst : Ref) (st0 : PState) (w0 : World Cursor Mem)
    (ops : List SOp) (r : Option Res) (st : PState) (w : World Cursor Mem) : Prop where
  more : r = none ∨ r = some .PARTIAL → w.ds.final = false → ∀ t f,
    Same env p dst dst st0 (w0.feed (opsText ops ++ t) f) st (w.feed t f)
  last : r = none ∨ r = some .PARTIAL → w.ds.final = true →
    Same env p dst dst st0 (w0.feed (opsText ops) true) st w
  done : ∀ v, r = some v → v ≠ .PARTIAL → ∃ t st' w', w'.ds.saved = w.ds.saved ∧
    Evals env p dst dst st0 (w0.feed t true) (.ok ((v, st'), w'))

theorem Driven.caught {env p dst m ops r st} {w : World Cursor Mem}
    (h : Driven Cursor.addBuffer Cursor.start env p dst m ops r st w) :
    ∃ st0 w0, construct p dst dst (⟨Cursor.start, m⟩ : World Cursor Mem) = .ok (st0, w0) ∧
      w0.ds.final = false ∧ Caught env p dst st0 w0 ops r st w := by
  induction h with
  | @made st w h =>
    have hf := (construct_feed p dst dst (⟨Cursor.start, m⟩ : World Cursor Mem) rfl [] false).2
    rw [h] at hf
    have hf' : w.ds.final = false := hf
    refine ⟨st, w, h, hf', ⟨fun _ _ t f => Same.refl _ _ _ _ _ _, fun _ hl => ?_, fun v hv => ?_⟩⟩
    · rw [hf'] at hl; cases hl
    · cases hv
  | @add ops r st w ds b f _ ha ih =>
    obtain ⟨st0, w0, h0, hf0, hc⟩ := ih
    refine ⟨st0, w0, h0, hf0, ?_⟩
    unfold Cursor.addBuffer at ha
    split at ha
    · cases ha
    · rename_i hf
      have hf : w.ds.final = false := by simpa using hf
      cases ha
      have e : opsText (ops ++ [SOp.add b f]) = opsText ops ++ b := by
        rw [opsText_append]; simp [opsText]
      refine ⟨fun hr hl t g => ?_, fun hr hl => ?_, fun v hv hn => hc.done v hv hn⟩
      · rw [e, List.append_assoc]
        have := hc.more hr hf (b ++ t) g
        rw [← World.feed_feed w b t f g] at this
        exact this
      · rw [e]
        have hl' : f = true := hl
        subst hl'
        exact hc.more hr hf b true
  | @consume ops r st w r' st' w' _ hr he ih =>
    obtain ⟨st0, w0, h0, hf0, hc⟩ := ih
    refine ⟨st0, w0, h0, hf0, ?_⟩
    have e : opsText (ops ++ [SOp.consume]) = opsText ops := by
      rw [opsText_append]; simp [opsText]
    have hfe := he.final_eq
    obtain ⟨hne, n, hn⟩ := he
    have he : Evals env p dst dst st w (.ok ((r', st'), w')) := ⟨hne, n, hn⟩
    cases hf : w.ds.final with
    | true =>
      have hnp : r' ≠ .PARTIAL := by
        rintro rfl
        have := he.not_partial.2
        rw [show DataSource.final w'.ds = w'.ds.final from rfl, hfe, hf] at this
        cases this
      refine ⟨fun h => ?_, fun h => ?_, fun v hv _ => ?_⟩
      · rcases h with h | h
        · cases h
        · cases h; exact absurd rfl hnp
      · rcases h with h | h
        · cases h
        · cases h; exact absurd rfl hnp
      · cases hv
        exact ⟨_, _, _, rfl, (hc.last hr hf _).2 he⟩
    | false =>
      refine ⟨fun h _ t f => ?_, fun _ hl => ?_, fun v hv hnv => ?_⟩
      · rcases h with h | h
        · cases h
        · cases h
          rw [e]
          refine (hc.more hr hf t f).trans ?_
          have hres := resumable env n p dst dst st w hf t f
          rw [hn] at hres
          generalize run env n p dst dst st (w.feed t f) = y at hres
          cases hres with
          | done h => exact absurd rfl h
          | more _ _ h => exact h
      · rw [hfe, hf] at hl; cases hl
      · cases hv
        have hres := resumable env n p dst dst st w hf [] true
        rw [hn] at hres
        generalize hy : run env n p dst dst st (w.feed [] true) = y at hres
        cases hres with
        | more => exact absurd rfl hnv
        | done _ _ =>
          exact ⟨_, _, w'.feed [] true, rfl, (hc.more hr hf [] true _).2 ⟨by simp, n, hy⟩⟩

/-- After the verdict a tidy pattern leaves no rollback point. -/
theorem Driven.closed {env els elf} (henv : env.tidy false els elf) {p : Pat}
    (hp : p.tidy false els elf false .none .none = true) {dst m ops st r}
    {w : World Cursor Mem} (hr : r ≠ .PARTIAL)
    (h : Driven Cursor.addBuffer Cursor.start env (topParser p) dst m ops (some r) st w) :
    w.ds.saved = [] := by
  obtain ⟨st0, w0, h0, hf0, hc⟩ := h.caught
  obtain ⟨t, st', w', hs, he⟩ := hc.done r rfl hr
  rw [← hs]
  have hlift := (construct_feed (topParser p) dst dst (⟨Cursor.start, m⟩ : World Cursor Mem) rfl
    t true).1
  rw [h0] at hlift
  have hw : (⟨Cursor.start, m⟩ : World Cursor Mem).feed t true = ⟨Cursor.whole t, m⟩ := by
    simp [World.feed, Cursor.feed, Cursor.start, Cursor.whole]
  rw [hw] at hlift
  have hsim := construct_sim SingleForward.dsSim (topParser p) dst dst m
    (SingleForward.rel_make t)
  rw [hlift] at hsim
  generalize hx : construct (topParser p) dst dst
    (⟨SingleForward.make t, m⟩ : World SingleForward Mem) = x at hsim
  cases hsim with
  | @ok st1 s c m' hrel =>
    obtain ⟨o', ho', hrel'⟩ := Evals.sim' SingleForward.dsSim he hrel
    cases hrel' with
    | @ok a s' c' m'' hrs =>
      have hap : Applies env (elabP .fail DefaultReqs p) dst dst ⟨SingleForward.make t, m⟩ r
        ⟨s', m''⟩ := ⟨_, _, _, hx, ho'⟩
      obtain ⟨_, _, ho⟩ := hap.outcome (ls := .none) (lf := .none) henv rfl rfl hp
        (SingleForward.rel_make t).valid
      have hst : s'.stack = [] := by
        cases ho with
        | ok _ _ h3 => exact h3.eq
        | no _ h3 _ => exact h3.eq
      have : c'.saved = s'.stack := hrs.2.2.2.2.1
      rw [this, hst]

/-- Driving a parser object with `n` as fuel; the operations are in reverse order. -/
def driveN (env : Env) (n : Nat) (p : Prog) (dst : Ref) (m : Mem) :
    List SOp → Option (Option Res × PState × World ContainerSeq Mem)
  | [] =>
    match construct p dst dst (⟨ContainerSeq.make, m⟩ : World ContainerSeq Mem) with
    | .ok (st, w) => some (none, st, w)
    | .error _ => none
  | .add b f :: ops =>
    match driveN env n p dst m ops with
    | some (r, st, w) => (w.ds.addBuffer b f).map fun ds => (r, st, ⟨ds, w.mem⟩)
    | none => none
  | .consume :: ops =>
    match driveN env n p dst m ops with
    | some (r, st, w) =>
      if r = none ∨ r = some .PARTIAL then
        match run env n p dst dst st w with
        | .ok ((r', st'), w') => some (some r', st', w')
        | .error _ => none
      else none
    | none => none

theorem driven_of_driveN {env : Env} {n : Nat} {p : Prog} {dst : Ref} {m : Mem} {ops : List SOp}
    {r st w} (h : driveN env n p dst m ops = some (r, st, w)) :
    Driven ContainerSeq.addBuffer ContainerSeq.make env p dst m ops.reverse r st w := by
  induction ops generalizing r st w with
  | nil =>
    simp only [driveN] at h
    split at h
    · rename_i hc; cases h; exact .made hc
    · cases h
  | cons op ops ih =>
    cases op with
    | add b f =>
      simp only [driveN] at h
      split at h
      · rename_i hd
        rw [Option.map_eq_some_iff] at h
        obtain ⟨ds, ha, h⟩ := h
        cases h
        rw [List.reverse_cons]
        exact .add b f (ih hd) ha
      · cases h
    | consume =>
      simp only [driveN] at h
      split at h
      · rename_i hd
        split at h
        · rename_i hr
          split at h
          · rename_i he
            cases h
            rw [List.reverse_cons]
            exact .consume (ih hd) hr ⟨by simp, n, he⟩
          · cases h
        · cases h
      · cases h

end Abu
