import Verif.Proofs.Low
import Verif.Proofs.Rollback
import Verif.Proofs.Tidy
import Verif.Model.Counters
import Verif.Spec.Counters
/-
How far the counters of parser objects can get: states of parser objects against the position in
the text.
-/
namespace Abu

mutual
/-- `Pat.countsFit` for parser classes, if counters are to be checked. -/
def Prog.countsFit (chk : Bool) (lim : Nat) (c : Nat → Bool) : Prog → Bool
  | .seq slots ps => decide (slots.length = ps.length) && Prog.allCountsFit chk lim c ps
  | .alt ps => Prog.allCountsFit chk lim c ps
  | .rep _ mx p => (!chk || p.eats c || (decide (0 < mx) && decide (mx ≤ lim))) && p.countsFit chk lim c
  | .opt p => p.countsFit chk lim c
  | .not p => p.countsFit chk lim c
  | .discard p => p.countsFit chk lim c
  | .lexeme p => p.countsFit chk lim c
  | .bindDst p => p.countsFit chk lim c
  | .construct _ p => p.countsFit chk lim c
  | .action _ p => p.countsFit chk lim c
  | .except op neg => op.countsFit chk lim c && neg.countsFit chk lim c
  | .list op sep => op.countsFit chk lim c && sep.countsFit chk lim c
  | .withSkipper p => p.countsFit chk lim c
  | .recur _ sk => sk.countsFit chk lim c
  | .atomic p => p.countsFit chk lim c
  | .clean p => p.countsFit chk lim c
  | .skip s p => s.countsFit chk lim c && p.countsFit chk lim c
  | _ => true
def Prog.allCountsFit (chk : Bool) (lim : Nat) (c : Nat → Bool) : List Prog → Bool
  | [] => true
  | p :: ps => p.countsFit chk lim c && Prog.allCountsFit chk lim c ps
end

theorem Prog.allCountsFit_get {chk : Bool} {lim : Nat} {c : Nat → Bool} {ps : List Prog}
    (h : Prog.allCountsFit chk lim c ps = true) {j : Nat} {p : Prog} (hj : ps[j]? = some p) :
    p.countsFit chk lim c = true := by
  induction ps generalizing j with
  | nil => cases hj
  | cons q ps ih =>
    rw [Prog.allCountsFit, Bool.and_eq_true] at h
    cases j with
    | zero => cases hj; exact h.1
    | succ j => exact ih h.2 hj

section
variable {chk : Bool} {lim : Nat} {c : Nat → Bool}

theorem adapt_countsFit {sk : Prog} (hsk : sk.countsFit chk lim c = true) (a b : Bool) {raw : Prog}
    (hr : raw.countsFit chk lim c = true) : (adapt sk a b raw).countsFit chk lim c = true := by
  cases h : sk.isFail <;> cases a <;> cases b <;> simp [adapt, h, Prog.countsFit, hr, hsk]

theorem Req.skipper_countsFit {sk : Prog} (hsk : sk.countsFit chk lim c = true) (r : Req) :
    (r.skipper sk).countsFit chk lim c = true := by
  unfold Req.skipper; split
  · rfl
  · exact hsk

mutual
theorem elabP_countsFit : ∀ (p : Pat) (sk : Prog) (r : Req), sk.countsFit chk lim c = true →
    (chk = true → p.countsFit lim c = true) → (elabP sk r p).countsFit chk lim c = true
  | .char _, sk, r, hs, h | .charSymbol _, sk, r, hs, h | .strLit _, sk, r, hs, h
  | .symbol _, sk, r, hs, h | .int .., sk, r, hs, h | .uint .., sk, r, hs, h | .eoi, sk, r, hs, h
  | .pass, sk, r, hs, h | .fail, sk, r, hs, h => by
    rw [elabP]; exact adapt_countsFit (r.skipper_countsFit hs) _ _ rfl
  | .recur id b, sk, r, hs, h => by
    rw [elabP]; exact adapt_countsFit (r.skipper_countsFit hs) _ _ (by
      first
      | exact hs
      | (rw [Prog.countsFit]; split <;> first | rfl | exact hs))
  | .seq ps, sk, r, hs, h => by
    rw [elabP]
    refine adapt_countsFit (r.skipper_countsFit hs) _ _ ?_
    rw [Prog.countsFit, Bool.and_eq_true, tupleSlots_length, elabPs_length]
    exact ⟨decide_eq_true rfl, elabPs_countsFit ps sk _ hs h⟩
  | .alt ps, sk, r, hs, h => by
    rw [elabP]
    exact adapt_countsFit (r.skipper_countsFit hs) _ _ (elabPs_countsFit ps sk _ hs h)
  | .rep mn mx p, sk, r, hs, h => by
    rw [elabP]
    refine adapt_countsFit (r.skipper_countsFit hs) _ _ ?_
    simp only [Pat.countsFit, Bool.and_eq_true] at h
    rw [Prog.countsFit, elabP_eats, Bool.and_eq_true]
    refine ⟨?_, elabP_countsFit p _ _ hs (fun hk => (h hk).2)⟩
    cases chk with
    | false => rfl
    | true => exact (h rfl).1
  | .opt p, sk, r, hs, h => by
    rw [elabP]; exact adapt_countsFit (r.skipper_countsFit hs) _ _ (elabP_countsFit p _ _ hs h)
  | .not p, sk, r, hs, h => by
    rw [elabP]; exact adapt_countsFit (r.skipper_countsFit hs) _ _ (elabP_countsFit p _ _ hs h)
  | .discard p, sk, r, hs, h => by
    rw [elabP]; exact adapt_countsFit (r.skipper_countsFit hs) _ _ (elabP_countsFit p _ _ hs h)
  | .lexeme p, sk, r, hs, h => by
    rw [elabP]; exact adapt_countsFit (r.skipper_countsFit hs) _ _ (elabP_countsFit p _ _ rfl h)
  | .bindDst p, sk, r, hs, h => by
    rw [elabP]; exact adapt_countsFit (r.skipper_countsFit hs) _ _ (elabP_countsFit p _ _ hs h)
  | .construct _ p, sk, r, hs, h => by
    rw [elabP]; exact adapt_countsFit (r.skipper_countsFit hs) _ _ (elabP_countsFit p _ _ hs h)
  | .action _ p, sk, r, hs, h => by
    rw [elabP]; exact adapt_countsFit (r.skipper_countsFit hs) _ _ (elabP_countsFit p _ _ hs h)
  | .except op neg, sk, r, hs, h => by
    rw [elabP]
    refine adapt_countsFit (r.skipper_countsFit hs) _ _ ?_
    simp only [Pat.countsFit, Bool.and_eq_true] at h
    rw [Prog.countsFit, Bool.and_eq_true]
    exact ⟨elabP_countsFit op _ _ hs (fun hk => (h hk).1), elabP_countsFit neg _ _ hs (fun hk => (h hk).2)⟩
  | .list op sep, sk, r, hs, h => by
    rw [elabP]
    refine adapt_countsFit (r.skipper_countsFit hs) _ _ ?_
    simp only [Pat.countsFit, Bool.and_eq_true] at h
    rw [Prog.countsFit, Bool.and_eq_true]
    exact ⟨elabP_countsFit op _ _ hs (fun hk => (h hk).1), elabP_countsFit sep _ _ hs (fun hk => (h hk).2)⟩
  | .withSkipper p s, sk, r, hs, h => by
    simp only [Pat.countsFit, Bool.and_eq_true] at h
    rw [elabP]
    refine adapt_countsFit (r.skipper_countsFit hs) _ _ ?_
    rw [Prog.countsFit]
    exact elabP_countsFit p _ _ (elabP_countsFit s _ _ rfl (fun hk => (h hk).2)) (fun hk => (h hk).1)
theorem elabPs_countsFit : ∀ (ps : List Pat) (sk : Prog) (r : Req), sk.countsFit chk lim c = true →
    (chk = true → Pat.allCountsFit lim c ps = true) → Prog.allCountsFit chk lim c (elabPs sk r ps) = true
  | [], _, _, _, _ => rfl
  | p :: ps, sk, r, hs, h => by
    simp only [Pat.allCountsFit, Bool.and_eq_true] at h
    rw [elabPs, Prog.allCountsFit, Bool.and_eq_true]
    exact ⟨elabP_countsFit p _ _ hs (fun hk => (h hk).1), elabPs_countsFit ps _ _ hs (fun hk => (h hk).2)⟩
end

end

/-- `Env.CountsFit`, if counters are to be checked. -/
structure Env.Counts (env : Env) (chk : Bool) (lim : Nat) (c : Nat → Bool) : Prop where
  fits : chk = true → ∀ id q, env id = some q → q.countsFit lim c = true
  eats : ∀ id q, env id = some q → c id = true → q.eats c = true

theorem Env.CountsFit.counts {env : Env} {lim : Nat} {c : Nat → Bool} (h : env.CountsFit lim c) :
    env.Counts true lim c := ⟨fun _ => h.fits, h.eats⟩

/-- Rollback points between `lo` and `lim`. -/
def Between (lim lo : Nat) (L : List Nat) : Prop := ∀ x ∈ L, lo ≤ x ∧ x ≤ lim

theorem Between.mono {lim lo b L} (h : Between lim b L) (hb : lo ≤ b) : Between lim lo L :=
  fun x hx => ⟨Nat.le_trans hb (h x hx).1, (h x hx).2⟩

theorem Between.append {lim lo L L'} (h : Between lim lo L) (h' : Between lim lo L') :
    Between lim lo (L ++ L') := by
  intro x hx
  rcases List.mem_append.1 hx with h1 | h1
  · exact h x h1
  · exact h' x h1

theorem Between.replicate {lim lo n i} (h : lo ≤ i) (h' : i ≤ lim) :
    Between lim lo (List.replicate n i) := fun x hx => by
  rw [(List.mem_replicate.1 hx).2]; exact ⟨h, h'⟩

theorem Between.nil {lim lo} : Between lim lo [] := fun x hx => by cases hx

theorem Between.cons {lim lo x L} (h : lo ≤ x) (h' : x ≤ lim) (hL : Between lim lo L) :
    Between lim lo (x :: L) := by
  intro y hy
  rcases List.mem_cons.1 hy with rfl | hy
  · exact ⟨h, h'⟩
  · exact hL y hy

theorem Between.tail {lim lo x L} (h : Between lim lo (x :: L)) : Between lim lo L :=
  fun y hy => h y (List.mem_cons_of_mem _ hy)

/-- A position and rollback points between `lo` and `lim`. -/
structure Room (lim lo : Nat) (L : List Nat) (i : Nat) : Prop where
  low : lo ≤ i
  high : i ≤ lim
  marks : Between lim lo L

theorem Room.mono {lim lo b L i} (h : Room lim b L i) (hb : lo ≤ b) : Room lim lo L i :=
  ⟨Nat.le_trans hb h.low, h.high, h.marks.mono hb⟩

theorem Room.append {lim lo L L' i} (h : Room lim lo L i) (h' : Between lim lo L') :
    Room lim lo (L ++ L') i := ⟨h.low, h.high, h.marks.append h'⟩

/-- `Counted env c chk lim lo p st L i`: a possible state of a parser object of class `p`, which was
constructed at or after position `lo`, when the position is `i` and `L` are the rollback points
created since. Counters do not exceed what was consumed. -/
inductive Counted (env : Env) (c : Nat → Bool) (chk : Bool) (lim : Nat) :
    Nat → Prog → PState → List Nat → Nat → Prop
  | char {lo s L i} : Room lim lo L i → Counted env c chk lim lo (.char s) .unit L i
  | charSymbol {lo m L i} : Room lim lo L i → Counted env c chk lim lo (.charSymbol m) .unit L i
  | strLit {lo s k L i} : Room lim lo L i → lo + k ≤ i →
      Counted env c chk lim lo (.strLit s) (.strLit k) L i
  | symbolNone {lo r n L i} : Room lim lo L i →
      Counted env c chk lim lo (.symbol r) (.symbol n none) L i
  | symbolSome {lo r n v m L i} : Room lim lo (m :: L) i → lo < m →
      Counted env c chk lim lo (.symbol r) (.symbol n (some v)) (m :: L) i
  | int {lo b mn mx n l g L i} : Room lim lo L i → lo + n ≤ i →
      Counted env c chk lim lo (.int b mn mx) (.int n l g) L i
  | uint {lo b mn mx n L i} : Room lim lo L i → lo + n ≤ i →
      Counted env c chk lim lo (.uint b mn mx) (.uint n) L i
  | eoi {lo L i} : Room lim lo L i → Counted env c chk lim lo .eoi .unit L i
  | pass {lo L i} : Room lim lo L i → Counted env c chk lim lo .pass .unit L i
  | fail {lo L i} : Room lim lo L i → Counted env c chk lim lo .fail .unit L i
  | seq {lo slots ps k p s st b L L' i} : ps[k]? = some p → slots[k]? = some s → lo ≤ b →
      (∀ j q, j < k → ps[j]? = some q → q.eats c = true → lo < b) →
      Counted env c chk lim b p st L i → Between lim lo L' →
      Counted env c chk lim lo (.seq slots ps) (.seq k st) (L ++ L') i
  | alt {lo ps k p st b L L' i} : ps[k]? = some p → lo ≤ b → Counted env c chk lim b p st L i →
      Between lim lo L' → Counted env c chk lim lo (.alt ps) (.alt k st) (L ++ L') i
  | rep {lo mn mx p n st b L L' i} : lo ≤ b → (p.eats c = true → lo + n ≤ b) →
      (p.eats c = false → chk = true → n < mx) → Counted env c chk lim b p st L i → Between lim lo L' →
      Counted env c chk lim lo (.rep mn mx p) (.rep n st) (L ++ L') i
  | opt {lo p st L m L' i} : Counted env c chk lim lo p st L i → Between lim lo (m :: L') →
      Counted env c chk lim lo (.opt p) (.wrap st) (L ++ m :: L') i
  | not {lo p st L m L' i} : Counted env c chk lim lo p st L i → Between lim lo (m :: L') →
      Counted env c chk lim lo (.not p) (.wrap st) (L ++ m :: L') i
  | discard {lo p st L i} : Counted env c chk lim lo p st L i →
      Counted env c chk lim lo (.discard p) (.wrap st) L i
  | lexeme {lo p st L i} : Counted env c chk lim lo p st L i →
      Counted env c chk lim lo (.lexeme p) (.wrap st) L i
  | bindDst {lo p st L i} : Counted env c chk lim lo p st L i →
      Counted env c chk lim lo (.bindDst p) (.wrap st) L i
  | construct {lo tys p b st L i} : Counted env c chk lim lo p st L i →
      Counted env c chk lim lo (.construct tys p) (.buffered b st) L i
  | action {lo a p b st L i} : Counted env c chk lim lo p st L i →
      Counted env c chk lim lo (.action a p) (.buffered b st) L i
  | exceptNeg {lo op neg st L i} : Counted env c chk lim lo neg st L i →
      Counted env c chk lim lo (.except op neg) (.except false st) L i
  | exceptOp {lo op neg st b L L' i} : lo ≤ b → Counted env c chk lim b op st L i →
      Between lim lo L' → Counted env c chk lim lo (.except op neg) (.except true st) (L ++ L') i
  | listOp {lo op sep st b L m L' i} : lo ≤ b → Counted env c chk lim b op st L i →
      Between lim lo (m :: L') →
      Counted env c chk lim lo (.list op sep) (.list false st) (L ++ m :: L') i
  | listSep {lo op sep st b L m L' i} : lo ≤ b → (op.eats c = true → lo < b) → Counted env c chk lim b sep st L i →
      Between lim lo (m :: L') →
      Counted env c chk lim lo (.list op sep) (.list true st) (L ++ m :: L') i
  | withSkipper {lo p st L i} : Counted env c chk lim lo p st L i →
      Counted env c chk lim lo (.withSkipper p) (.wrap st) L i
  | recurNone {lo id sk L i} : Room lim lo L i →
      Counted env c chk lim lo (.recur id sk) .recurNone L i
  | recurSome {lo id sk q st L i} : env id = some q →
      Counted env c chk lim lo (elabP sk RecurChildReqs q) st L i →
      Counted env c chk lim lo (.recur id sk) (.recurSome st) L i
  | atomic {lo p b st L i} : Counted env c chk lim lo p st L i →
      Counted env c chk lim lo (.atomic p) (.buffered b st) L i
  | clean {lo p st L m L' i} : Counted env c chk lim lo p st L i → Between lim lo (m :: L') →
      Counted env c chk lim lo (.clean p) (.wrap st) (L ++ m :: L') i
  /-- `p` has not been used yet: any place will do -/
  | skipping {lo s p sc st b k L L' i} : lo ≤ b → Counted env c chk lim b s sc L i →
      (∀ lo' M j, Room lim lo' M j → k ≤ M.length → Counted env c chk lim lo' p st M j) →
      Between lim lo L' → k ≤ L'.length →
      Counted env c chk lim lo (.skip s p) (.skip false sc st) (L ++ L') i
  | skipped {lo s p sc st L i} : Counted env c chk lim lo p st L i →
      Counted env c chk lim lo (.skip s p) (.skip true sc st) L i

/-- A newly constructed object with `k` rollback points: any place at or after `lo` will do. -/
def New (env : Env) (c : Nat → Bool) (chk : Bool) (lim : Nat) (p : Prog) (st : PState) (k : Nat) : Prop :=
  ∀ lo L i, Room lim lo L i → k ≤ L.length → Counted env c chk lim lo p st L i

/-- The errors that only machines with additional checks give. -/
def Err.isLimit : Err → Bool
  | .ubCounter => true
  | .ubStack => true
  | _ => false

/-- Any other error. -/
def Err.NotLimit (e : Err) : Prop := e.isLimit = false

/-- A memory whose operations do not fail with such an error. -/
def QuietOps (μ : Type) [Store μ] : Prop :=
  ∀ (o : MemOp) (m : μ) e, Store.op o m = .error e → e.NotLimit

theorem split_last {L : List Nat} {k : Nat} (h : k + 1 ≤ L.length) :
    ∃ M m, L = M ++ [m] ∧ k ≤ M.length := by
  refine ⟨L.dropLast, L.getLast (by intro h'; simp [h'] at h), ?_, ?_⟩
  · exact (List.dropLast_concat_getLast _).symm
  · rw [List.length_dropLast]; omega

section
variable {μ : Type} [Store μ] {env : Env} {c : Nat → Bool} {chk : Bool} {lim : Nat}
  {call : Prog → Ref → Ref → PState → World Cursor μ → Out Cursor μ (Res × PState)}

theorem New.one {p q : Prog} {st : PState} {f : PState → PState} {k : Nat}
    (h : New env c chk lim p st k)
    (hf : ∀ {lo L i}, Counted env c chk lim lo p st L i → Counted env c chk lim lo q (f st) L i) :
    New env c chk lim q (f st) k := fun lo L i hr hk => hf (h lo L i hr hk)

theorem New.two {p q : Prog} {st : PState} {f : PState → PState} {k : Nat}
    (h : New env c chk lim p st k)
    (hf : ∀ {lo L m i}, Counted env c chk lim lo p st L i → Between lim lo [m] →
      Counted env c chk lim lo q (f st) (L ++ [m]) i) :
    New env c chk lim q (f st) (k + 1) := by
  intro lo L i hr hk
  obtain ⟨M, m, rfl, hM⟩ := split_last hk
  have h1 : Between lim lo M := fun x hx => hr.marks x (List.mem_append_left _ hx)
  have h2 : Between lim lo [m] := fun x hx => hr.marks x (List.mem_append_right _ hx)
  exact hf (h lo M i ⟨hr.low, hr.high, h1⟩ hM) h2

/-- What construction gives. -/
def MadeNew (env : Env) (c : Nat → Bool) (chk : Bool) (lim : Nat) (p : Prog) (w : World Cursor μ)
    (st : PState) (w' : World Cursor μ) : Prop :=
  ∃ k, New env c chk lim p st k ∧ w'.ds.saved = List.replicate k w.ds.pos ++ w.ds.saved ∧
    w'.ds.pos = w.ds.pos ∧ w'.ds.text = w.ds.text

theorem mk_new (hμ : QuietOps μ) (env : Env) (c : Nat → Bool) (chk : Bool) (lim : Nat) (p : Prog) :
    ∀ dst bnd (w : World Cursor μ), p.countsFit chk lim c = true →
    Post Err.NotLimit (MadeNew env c chk lim p w) (exec call (mk p dst bnd) w) := by
  have leaf : ∀ {p st} {w w' : World Cursor μ},
      (∀ {lo L i}, Room lim lo L i → Counted env c chk lim lo p st L i) → w'.ds = w.ds →
      MadeNew env c chk lim p w st w' := by
    intro p st w w' h hw
    exact ⟨0, fun lo L i hr _ => h hr, by rw [hw]; rfl, by rw [hw], by rw [hw]⟩
  have one : ∀ {p q dst bnd} {f : PState → PState} {w w0 : World Cursor μ},
      (∀ (w : World Cursor μ), p.countsFit chk lim c = true →
        Post Err.NotLimit (MadeNew env c chk lim p w) (exec call (mk p dst bnd) w)) →
      p.countsFit chk lim c = true → w.ds = w0.ds →
      (∀ {st lo L i}, Counted env c chk lim lo p st L i → Counted env c chk lim lo q (f st) L i) →
      Post Err.NotLimit (MadeNew env c chk lim q w0)
        (exec call ((mk p dst bnd).bind fun c => .pure (f c)) w) := by
    intro p q dst bnd f w w0 h hfit hw hf
    refine post_bind ((h w hfit).imp (fun _ h => h) fun st w' ⟨n, h1, h2, h3, h4⟩ =>
      ⟨n, h1.one hf, ?_, ?_, ?_⟩)
    · rw [← hw]; exact h2
    · rw [← hw]; exact h3
    · rw [← hw]; exact h4
  have two : ∀ {p q dst bnd} {f : PState → PState} {w : World Cursor μ},
      (∀ (w : World Cursor μ), p.countsFit chk lim c = true →
        Post Err.NotLimit (MadeNew env c chk lim p w) (exec call (mk p dst bnd) w)) →
      p.countsFit chk lim c = true →
      (∀ {st lo L m i}, Counted env c chk lim lo p st L i → Between lim lo [m] →
        Counted env c chk lim lo q (f st) (L ++ [m]) i) →
      Post Err.NotLimit (MadeNew env c chk lim q w)
        (exec call ((mk p dst bnd).bind fun c => .prepare (.pure (f c))) w) := by
    intro p q dst bnd f w h hfit hf
    refine post_bind ((h w hfit).imp (fun _ h => h) fun st w' ⟨n, h1, h2, h3, h4⟩ =>
      ⟨n + 1, h1.two hf, ?_, h3, h4⟩)
    show w'.ds.pos :: w'.ds.saved = _
    rw [h2, h3, List.replicate_succ]; rfl
  have nofault : ∀ {w : World Cursor μ} {Q : PState → World Cursor μ → Prop},
      Post Err.NotLimit Q (exec call (.fault .noCompile) w) := by
    intro w Q; exact rfl
  intro dst bnd
  fun_induction mk p dst bnd with
  | case1 => intro w _; exact leaf .char rfl
  | case2 => intro w _; exact leaf .charSymbol rfl
  | case3 => intro w _; exact leaf (fun h => .strLit h h.low) rfl
  | case4 => intro w _; exact leaf .symbolNone rfl
  | case5 =>
    intro w _
    exact post_mem (fun e he => hμ _ _ e he) fun m _ => leaf (fun h => .int h h.low) rfl
  | case6 =>
    intro w _
    exact post_mem (fun e he => hμ _ _ e he) fun m _ => leaf (fun h => .uint h h.low) rfl
  | case7 => intro w _; exact leaf .eoi rfl
  | case8 => intro w _; exact leaf .pass rfl
  | case9 => intro w _; exact leaf .fail rfl
  | case10 => intro w _; exact nofault
  | case11 s ss p ps dst bnd d hd ih =>
    intro w hfit
    rw [Prog.countsFit, Bool.and_eq_true] at hfit
    refine one (w0 := w) ih (Prog.allCountsFit_get (j := 0) hfit.2 rfl) rfl fun {st lo L i} h => ?_
    have := Counted.seq (slots := s :: ss) (ps := p :: ps) (k := 0) rfl rfl (Nat.le_refl lo)
      (fun j q hj => by omega) h Between.nil
    rwa [List.append_nil] at this
  | case12 => intro w _; exact nofault
  | case13 p ps dst bnd ih =>
    intro w hfit
    refine one (w0 := w) ih (Prog.allCountsFit_get (j := 0) hfit rfl) rfl fun {st lo L i} h => ?_
    have := Counted.alt (ps := p :: ps) (k := 0) rfl (Nat.le_refl lo) h Between.nil
    rwa [List.append_nil] at this
  | case14 => intro w _; exact nofault
  | case15 mn mx p dst bnd ih =>
    intro w hfit
    rw [Prog.countsFit, Bool.and_eq_true] at hfit
    refine one (w0 := w) ih hfit.2 rfl fun {st lo L i} h => ?_
    have := Counted.rep (mn := mn) (mx := mx) (n := 0) (Nat.le_refl lo) (fun _ => Nat.le_refl _)
      (fun he hk => by
        have := hfit.1
        simp [he, hk] at this
        exact this.1) h Between.nil
    rwa [List.append_nil] at this
  | case16 _ _ _ ih => intro w hfit; exact two ih hfit .opt
  | case17 _ _ _ ih => intro w hfit; exact two ih hfit .not
  | case18 _ _ _ ih => intro w hfit; exact one ih hfit rfl .discard
  | case19 _ _ _ ih => intro w hfit; exact one ih hfit rfl .lexeme
  | case20 _ _ _ ih => intro w hfit; exact one ih hfit rfl .bindDst
  | case21 tys p dst bnd ih =>
    intro w hfit
    exact one (f := fun c => PState.buffered _ c) (w := ⟨w.ds, _⟩) (ih _) hfit rfl .construct
  | case22 a p dst bnd ih =>
    intro w hfit
    exact one (f := fun c => PState.buffered _ c) (w := ⟨w.ds, _⟩) (ih _) hfit rfl .action
  | case23 _ _ _ _ ih =>
    intro w hfit
    rw [Prog.countsFit, Bool.and_eq_true] at hfit
    exact one ih hfit.2 rfl .exceptNeg
  | case24 _ _ _ _ ih =>
    intro w hfit
    rw [Prog.countsFit, Bool.and_eq_true] at hfit
    exact two ih hfit.1 (.listOp (Nat.le_refl _))
  | case25 _ _ _ ih => intro w hfit; exact one ih hfit rfl .withSkipper
  | case26 => intro w _; exact leaf .recurNone rfl
  | case27 p dst bnd ih =>
    intro w hfit
    exact one (f := fun c => PState.buffered _ c) (w := ⟨w.ds, _⟩) (ih _) hfit rfl .atomic
  | case28 _ _ _ ih => intro w hfit; exact two ih hfit .clean
  | case29 s p dst bnd ih1 ih2 =>
    intro w hfit
    rw [Prog.countsFit, Bool.and_eq_true] at hfit
    refine post_bind ((ih1 w hfit.1).imp (fun _ h => h) fun st w' ⟨n, h1, h2, h3, h4⟩ => ?_)
    refine post_bind ((ih2 w' hfit.2).imp (fun _ h => h) fun st' w'' ⟨n', h1', h2', h3', h4'⟩ => ?_)
    refine ⟨n' + n, ?_, ?_, by rw [h3', h3], by rw [h4', h4]⟩
    · intro lo L i hr hk
      have hL : L = L.take n ++ L.drop n := (List.take_append_drop n L).symm
      have ht : Between lim lo (L.take n) := fun x hx => hr.marks x (List.mem_of_mem_take hx)
      have hd : Between lim lo (L.drop n) := fun x hx => hr.marks x (List.mem_of_mem_drop hx)
      rw [hL]
      exact .skipping (Nat.le_refl lo) (h1 lo _ i ⟨hr.low, hr.high, ht⟩
        (by rw [List.length_take]; omega)) h1' hd (by rw [List.length_drop]; omega)
    · rw [h2', h2, h3, ← List.append_assoc, List.replicate_append_replicate]

end
end Abu
