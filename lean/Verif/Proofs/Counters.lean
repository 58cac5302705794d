import Verif.Proofs.Counted
/-
Runs of the machine with checked counters.
-/
namespace Abu

theorem Counted.room {env c chk lim lo p st L i} (h : Counted env c chk lim lo p st L i) :
    Room lim lo L i := by
  induction h with
  | char h | charSymbol h | strLit h | symbolNone h | symbolSome h | int h | uint h | eoi h
  | pass h | fail h | recurNone h => exact h
  | seq _ _ hb _ _ hL ih => exact (ih.mono hb).append hL
  | alt _ hb _ hL ih => exact (ih.mono hb).append hL
  | rep hb _ _ _ hL ih => exact (ih.mono hb).append hL
  | opt _ hL ih | not _ hL ih | clean _ hL ih => exact ih.append hL
  | discard _ ih | lexeme _ ih | bindDst _ ih | construct _ ih | action _ ih | exceptNeg _ ih
  | withSkipper _ ih | recurSome _ _ ih | atomic _ ih | skipped _ ih => exact ih
  | exceptOp hb _ hL ih | listOp hb _ hL ih | listSep hb _ _ hL ih => exact (ih.mono hb).append hL
  | skipping hb _ _ hL _ ih _ => exact (ih.mono hb).append hL

theorem Counted.counter {env c chk lim lo p st L i} (h : Counted env c chk lim lo p st L i)
    (hf : p.countsFit chk lim c = true) (hk : chk = true) : st.counter ≤ lim := by
  subst hk
  cases h with
  | int h hn => have := h.high; simp only [PState.counter]; omega
  | uint h hn => have := h.high; simp only [PState.counter]; omega
  | @rep _ mn mx p n st b L L' i hb h1 h2 hc hL =>
    rw [Prog.countsFit, Bool.and_eq_true] at hf
    have hr := hc.room
    have := hr.low
    have := hr.high
    simp only [PState.counter]
    cases he : p.eats c with
    | true => have := h1 he; omega
    | false =>
      have h1 := hf.1
      have := h2 he rfl
      simp [he] at h1
      omega
  | _ => simp [PState.counter]

section
variable {μ : Type} [Store μ] {env : Env} {c : Nat → Bool} {chk : Bool} {lim : Nat}
  {call : Prog → Ref → Ref → PState → World Cursor μ → Out Cursor μ (Res × PState)}

/-- How a parser constructed at or after `lo`, over the rollback points `S`, may return. -/
def CountedRes (env : Env) (c : Nat → Bool) (chk : Bool) (lim lo : Nat) (S : List Nat) (p : Prog) (r : Res)
    (st : PState) (w : World Cursor μ) : Prop :=
  w.ds.text.length ≤ lim ∧ ∃ L, w.ds.saved = L ++ S ∧ Room lim lo L w.ds.pos ∧
    (r = .SUCCESS → p.eats c = true → lo < w.ds.pos) ∧
    (r = .PARTIAL → Counted env c chk lim lo p st L w.ds.pos)

/-- The same for one iteration. -/
def CountedStep (env : Env) (c : Nat → Bool) (chk : Bool) (lim lo : Nat) (S : List Nat) (p : Prog) :
    Step → World Cursor μ → Prop
  | .ret r st, w => CountedRes env c chk lim lo S p r st w ∧ (chk = true → st.counter ≤ lim)
  | .cont st, w => w.ds.text.length ≤ lim ∧
      ∃ L, w.ds.saved = L ++ S ∧ Counted env c chk lim lo p st L w.ds.pos

/-- Calls of `consume` of an object of class `p` that was constructed at or after `lo`. -/
def CallAt (env : Env) (c : Nat → Bool) (chk : Bool) (lim : Nat)
    (call : Prog → Ref → Ref → PState → World Cursor μ → Out Cursor μ (Res × PState))
    (lo : Nat) (p : Prog) : Prop :=
  ∀ d b st (w : World Cursor μ) L S, p.countsFit chk lim c = true → w.ds.text.length ≤ lim →
    w.ds.saved = L ++ S → Counted env c chk lim lo p st L w.ds.pos →
    Post Err.NotLimit (fun x w' => CountedRes env c chk lim lo S p x.1 x.2 w') (call p d b st w)

/-- `CalledIn env c lo p b q`: an object of class `p` constructed at or after `lo` may call one of
class `q` constructed at or after `b`. -/
inductive CalledIn (env : Env) (c : Nat → Bool) (lo : Nat) : Prog → Nat → Prog → Prop
  | seq {slots} {ps : List Prog} {k : Nat} {p b} : ps[k]? = some p → lo ≤ b →
      (∀ (j : Nat) (q : Prog), j < k → ps[j]? = some q → q.eats c = true → lo < b) →
      CalledIn env c lo (.seq slots ps) b p
  | alt {ps : List Prog} {k : Nat} {p b} : ps[k]? = some p → lo ≤ b → CalledIn env c lo (.alt ps) b p
  | rep {mn mx p b} : lo ≤ b → CalledIn env c lo (.rep mn mx p) b p
  | opt {p} : CalledIn env c lo (.opt p) lo p
  | not {p} : CalledIn env c lo (.not p) lo p
  | discard {p} : CalledIn env c lo (.discard p) lo p
  | lexeme {p} : CalledIn env c lo (.lexeme p) lo p
  | bindDst {p} : CalledIn env c lo (.bindDst p) lo p
  | construct {tys p} : CalledIn env c lo (.construct tys p) lo p
  | action {a p} : CalledIn env c lo (.action a p) lo p
  | exceptNeg {op neg} : CalledIn env c lo (.except op neg) lo neg
  | exceptOp {op neg b} : lo ≤ b → CalledIn env c lo (.except op neg) b op
  | listOp {op sep b} : lo ≤ b → CalledIn env c lo (.list op sep) b op
  | listSep {op sep b} : lo ≤ b → (op.eats c = true → lo < b) → CalledIn env c lo (.list op sep) b sep
  | withSkipper {p} : CalledIn env c lo (.withSkipper p) lo p
  | recur {id sk q} : env id = some q → CalledIn env c lo (.recur id sk) lo (elabP sk RecurChildReqs q)
  | atomic {p} : CalledIn env c lo (.atomic p) lo p
  | clean {p} : CalledIn env c lo (.clean p) lo p
  | skipper {s p b} : lo ≤ b → CalledIn env c lo (.skip s p) b s
  | skipped {s p} : CalledIn env c lo (.skip s p) lo p

/-- Done, in a class that does not count. -/
theorem returned_done {lo S p r st L} {w : World Cursor μ} (ht : w.ds.text.length ≤ lim)
    (hs : w.ds.saved = L ++ S) (hr : Room lim lo L w.ds.pos) (hn : r ≠ .PARTIAL)
    (he : r = .SUCCESS → p.eats c = true → lo < w.ds.pos) (hc : chk = true → st.counter ≤ lim) :
    CountedStep env c chk lim lo S p (.ret r st) w :=
  ⟨⟨ht, L, hs, hr, he, fun h => absurd h hn⟩, hc⟩

/-- Suspended. -/
theorem returned_part {lo S p st L} {w : World Cursor μ} (hf : p.countsFit chk lim c = true)
    (ht : w.ds.text.length ≤ lim) (hs : w.ds.saved = L ++ S)
    (h : Counted env c chk lim lo p st L w.ds.pos) :
    CountedStep env c chk lim lo S p (.ret .PARTIAL st) w :=
  ⟨⟨ht, L, hs, h.room, (by simp), fun _ => h⟩, h.counter hf⟩

/-- Calling a child constructed at or after `b`. -/
theorem count_call {lo S p cp d bn st b L L' kk} {w : World Cursor μ} (hc : CallAt env c chk lim call b cp)
    (hf : cp.countsFit chk lim c = true) (ht : w.ds.text.length ≤ lim)
    (hs : w.ds.saved = (L ++ L') ++ S) (ho : Counted env c chk lim b cp st L w.ds.pos)
    (hk : ∀ r st' (w' : World Cursor μ) M, w'.ds.text.length ≤ lim →
      w'.ds.saved = (M ++ L') ++ S → Room lim b M w'.ds.pos →
      (r = .SUCCESS → cp.eats c = true → b < w'.ds.pos) →
      (r = .PARTIAL → Counted env c chk lim b cp st' M w'.ds.pos) →
      Post Err.NotLimit (CountedStep env c chk lim lo S p) (exec call (kk r st') w')) :
    Post Err.NotLimit (CountedStep env c chk lim lo S p) (exec call (.call cp d bn st kk) w) := by
  refine post_call ((hc d bn st w L (L' ++ S) hf ht (by rw [hs, List.append_assoc]) ho).imp
    (fun _ h => h) ?_)
  rintro ⟨r, st'⟩ w' ⟨h1, M, h2, h3, h4, h5⟩
  exact hk r st' w' M h1 (by rw [h2, List.append_assoc]) h3 h4 h5

/-- A child with nothing to do afterwards. -/
theorem count_fwd {lo S p cp d bn st L} {f : PState → PState} {w : World Cursor μ}
    (hc : CallAt env c chk lim call lo cp) (hf : cp.countsFit chk lim c = true)
    (ht : w.ds.text.length ≤ lim) (hs : w.ds.saved = L ++ S)
    (ho : Counted env c chk lim lo cp st L w.ds.pos) (he : p.eats c = true → cp.eats c = true)
    (hn : ∀ st, (f st).counter = 0)
    (hw : ∀ {st M i}, Counted env c chk lim lo cp st M i → Counted env c chk lim lo p (f st) M i) :
    Post Err.NotLimit (CountedStep env c chk lim lo S p)
      (exec call (.call cp d bn st fun r st' => retS r (f st')) w) := by
  refine count_call (L' := []) hc hf ht (by rw [List.append_nil]; exact hs) ho
    fun r st' w' M h1 h2 h3 h4 h5 => ?_
  rw [List.append_nil] at h2
  exact ⟨⟨h1, M, h2, h3, fun h h' => h4 h (he h'), fun h => hw (h5 h)⟩, fun _ => by rw [hn]; omega⟩

/-- Constructing the next child. -/
theorem count_mk (hμ : QuietOps μ) {lo S p q dst bnd L} {f : PState → PState}
    {w : World Cursor μ} (hq : q.countsFit chk lim c = true)
    (ht : w.ds.text.length ≤ lim) (hs : w.ds.saved = L ++ S) (hi : w.ds.pos ≤ lim)
    (hf : ∀ {st M}, Counted env c chk lim w.ds.pos q st M w.ds.pos →
      Counted env c chk lim lo p (f st) (M ++ L) w.ds.pos) :
    Post Err.NotLimit (CountedStep env c chk lim lo S p)
      (exec call ((mk q dst bnd).bind fun st => contS (f st)) w) := by
  refine post_bind ((mk_new hμ env c chk lim q dst bnd w hq).imp (fun _ h => h) ?_)
  rintro st w' ⟨k, h1, h2, h3, h4⟩
  refine ⟨by rw [h4]; exact ht, List.replicate k w.ds.pos ++ L, by rw [h2, hs, List.append_assoc], ?_⟩
  rw [h3]
  refine hf (h1 _ _ _ ⟨Nat.le_refl _, hi, .replicate (Nat.le_refl _) hi⟩ ?_)
  rw [List.length_replicate]; exact Nat.le_refl _

/-- Going back to the topmost rollback point. -/
theorem count_commit {lo S p r st L m L'} {w : World Cursor μ} (ht : w.ds.text.length ≤ lim)
    (hs : w.ds.saved = (L ++ m :: L') ++ S) (hL : Between lim lo (L ++ m :: L'))
    (hn : r ≠ .PARTIAL) (he : r = .SUCCESS → p.eats c = false) (hc : st.counter = 0) :
    Post Err.NotLimit (CountedStep env c chk lim lo S p) (exec call (.commit (retS r st)) w) := by
  have key : ∀ {x M}, L ++ m :: L' = x :: M →
      Post Err.NotLimit (CountedStep env c chk lim lo S p) (exec call (.commit (retS r st)) w) := by
    intro x M hx
    rw [hx] at hs hL
    rw [exec_commit (p := x) (ps := M ++ S) hs]
    have hm := hL x (by simp)
    exact returned_done (L := M) ht rfl ⟨hm.1, hm.2, hL.tail⟩ hn
      (fun h h' => by rw [he h] at h'; cases h') (fun _ => by omega)
  cases L with
  | nil => exact key rfl
  | cons x L => exact key rfl

/-- Dropping the topmost rollback point. -/
theorem count_cancel {lo S p r st L m L'} {w : World Cursor μ} (ht : w.ds.text.length ≤ lim)
    (hs : w.ds.saved = (L ++ m :: L') ++ S) (hL : Between lim lo (L ++ m :: L'))
    (hl : lo ≤ w.ds.pos) (hi : w.ds.pos ≤ lim)
    (hn : r ≠ .PARTIAL) (he : r = .SUCCESS → p.eats c = true → lo < w.ds.pos)
    (hc : st.counter = 0) :
    Post Err.NotLimit (CountedStep env c chk lim lo S p) (exec call (.cancel (retS r st)) w) := by
  have key : ∀ {x M}, L ++ m :: L' = x :: M →
      Post Err.NotLimit (CountedStep env c chk lim lo S p) (exec call (.cancel (retS r st)) w) := by
    intro x M hx
    rw [hx] at hs hL
    rw [exec_cancel (p := x) (ps := M ++ S) hs]
    exact returned_done (L := M) ht rfl ⟨hl, hi, hL.tail⟩ hn he (fun _ => by omega)
  cases L with
  | nil => exact key rfl
  | cons x L => exact key rfl

theorem body_counts (hμ : QuietOps μ)
    (henv : env.Counts chk lim c) {lo p st L}
    (hc : ∀ {b q}, CalledIn env c lo p b q → CallAt env c chk lim call b q)
    (dst bnd : Ref) (w : World Cursor μ) (S : List Nat) (hf : p.countsFit chk lim c = true)
    (ht : w.ds.text.length ≤ lim) (hs : w.ds.saved = L ++ S)
    (ho : Counted env c chk lim lo p st L w.ds.pos) :
    Post Err.NotLimit (CountedStep env c chk lim lo S p)
      (exec call (body env p dst bnd st) w) := by
  have hmem : ∀ {o : MemOp} {m : μ} {e}, Store.op o m = .error e → e.NotLimit := hμ _ _ _
  have hroom := ho.room
  have hnext : ∀ {ch}, w.ds.text[w.ds.pos]? = some ch → w.ds.pos + 1 ≤ lim := by
    intro ch h
    have := (List.getElem?_eq_some_iff.1 h).1
    omega
  have hstep : ∀ {ch}, w.ds.text[w.ds.pos]? = some ch → Room lim lo L (w.ds.pos + 1) :=
    fun h => ⟨Nat.le_succ_of_le hroom.low, hnext h, hroom.marks⟩
  -- an outcome at the current place
  have here : ∀ {r st'}, r ≠ .PARTIAL → (r = .SUCCESS → p.eats c = true → lo < w.ds.pos) →
      (chk = true → st'.counter ≤ lim) → ∀ m : μ, CountedStep env c chk lim lo S p (.ret r st') ⟨w.ds, m⟩ :=
    fun hn he hk m => returned_done (w := ⟨w.ds, m⟩) ht hs hroom hn he hk
  -- success after one more character
  have eaten : ∀ {st' ch}, w.ds.text[w.ds.pos]? = some ch → (chk = true → st'.counter ≤ lim) → ∀ m : μ,
      CountedStep env c chk lim lo S p (.ret .SUCCESS st')
        ⟨{ w.ds with pos := w.ds.pos + 1 }, m⟩ :=
    fun h hk m => returned_done (w := ⟨{ w.ds with pos := w.ds.pos + 1 }, m⟩) ht hs (hstep h)
      (by simp) (fun _ _ => Nat.lt_succ_of_le hroom.low) hk
  cases ho with
  | char _ =>
    refine post_guarded (fun _ _ => here (by simp) (by simp) (fun _ => by simp [PState.counter]) _)
      (fun _ _ => returned_part hf ht hs (.char hroom)) ?_
    intro ch hch
    split
    · refine post_mem (fun _ => hmem) fun m _ => ?_
      rw [exec_advance (w := ⟨w.ds, m⟩) hch]
      exact eaten hch (fun _ => by simp [PState.counter]) m
    · exact here (by simp) (by simp) (fun _ => by simp [PState.counter]) _
  | charSymbol _ =>
    refine post_guarded (fun _ _ => here (by simp) (by simp) (fun _ => by simp [PState.counter]) _)
      (fun _ _ => returned_part hf ht hs (.charSymbol hroom)) ?_
    intro ch hch
    split
    · exact here (by simp) (by simp) (fun _ => by simp [PState.counter]) _
    · exact post_mem (fun _ => hmem) fun m _ =>
        here (by simp) (fun _ h => by cases h) (fun _ => by simp [PState.counter]) m
  | @strLit _ s k _ _ _ hk =>
    simp only [body]
    split
    · rename_i hn
      refine here (by simp) (fun _ h => ?_) (fun _ => by simp [PState.counter]) _
      rw [List.getElem?_eq_none_iff] at hn
      cases s with
      | nil => cases h
      | cons x s => simp at hn; omega
    · refine post_guarded (fun _ _ => here (by simp) (by simp) (fun _ => by simp [PState.counter]) _)
        (fun _ _ => returned_part hf ht hs (.strLit hroom hk)) ?_
      intro ch hch
      split
      · rw [exec_advance hch]
        exact ⟨ht, L, hs, .strLit (hstep hch) (by simp only; omega)⟩
      · exact here (by simp) (by simp) (fun _ => by simp [PState.counter]) _
  | @symbolNone _ r nd =>
    simp only [body]
    refine post_guarded (fun _ _ => here (by simp) (by simp) (fun _ => by simp [PState.counter]) _)
        (fun _ _ => returned_part hf ht hs (.symbolNone hroom)) ?_
    intro ch hch
    split
    · exact here (by simp) (by simp) (fun _ => by simp [PState.counter]) _
    · rw [exec_advance hch]
      split
      · exact ⟨ht, L, hs, .symbolNone (hstep hch)⟩
      · simp only [Option.isSome_none, Bool.false_eq_true, if_false]
        split
        · exact post_mem (fun _ => hmem) fun m _ => eaten hch (fun _ => by simp [PState.counter]) m
        · rw [exec_prepare]
          refine ⟨ht, (w.ds.pos + 1) :: L, by simp [hs], .symbolSome ?_ (Nat.lt_succ_of_le hroom.low)⟩
          exact ⟨(hstep hch).low, (hstep hch).high,
            .cons (Nat.le_succ_of_le hroom.low) (hnext hch) hroom.marks⟩
  | @symbolSome _ r nd v m L _ _ hm =>
    have hmr := hroom.marks m (by simp)
    have hstop : Post Err.NotLimit (CountedStep env c chk lim lo S (.symbol r)) (exec call
        (.mem (.assign dst v) (.commit (retS .SUCCESS (.symbol nd (some v))))) w) :=
      post_mem (fun _ => hmem) fun m' _ => by
        rw [exec_commit (w := ⟨w.ds, m'⟩) (p := m) (ps := L ++ S) hs]
        exact returned_done (L := L) ht rfl ⟨hmr.1, hmr.2, hroom.marks.tail⟩ (by simp)
          (fun _ _ => hm) (fun _ => by simp [PState.counter])
    simp only [body]
    refine post_guarded (fun _ _ => hstop)
        (fun _ _ => returned_part hf ht hs (.symbolSome hroom hm)) ?_
    intro ch hch
    split
    · exact hstop
    · rw [exec_advance hch]
      split
      · exact ⟨ht, m :: L, hs, .symbolSome (hstep hch) hm⟩
      · simp only [Option.isSome_some, if_true]
        rw [exec_cancel (p := m) (ps := L ++ S) (by simpa using hs)]
        split
        · refine post_mem (fun _ => hmem) fun m' _ => ?_
          exact returned_done (L := L) ht rfl ⟨(hstep hch).low, (hstep hch).high, hroom.marks.tail⟩
            (by simp) (fun _ _ => Nat.lt_succ_of_le hroom.low) (fun _ => by simp [PState.counter])
        · rw [exec_prepare]
          refine ⟨ht, (w.ds.pos + 1) :: L, by simp, .symbolSome ?_ (Nat.lt_succ_of_le hroom.low)⟩
          exact ⟨(hstep hch).low, (hstep hch).high,
            .cons (Nat.le_succ_of_le hroom.low) (hnext hch) hroom.marks.tail⟩
  | @int _ b mn mx j l g _ _ _ hj =>
    simp only [body]
    have hlim := hroom.high
    have hen : ∀ {r}, enough j mn = r → r = .SUCCESS → (Prog.int b mn mx).eats c = true →
        lo < w.ds.pos := by
      intro r h1 h2 h3
      rw [h2] at h1
      simp only [Prog.eats, decide_eq_true_eq] at h3
      unfold enough at h1
      split at h1
      · omega
      · cases h1
    have hneg : ∀ {st' : PState} {r : Res} (w' : World Cursor μ),
        (∀ m : μ, CountedStep env c chk lim lo S (.int b mn mx) (.ret r st') ⟨w'.ds, m⟩) →
        Post Err.NotLimit (CountedStep env c chk lim lo S (.int b mn mx))
          (exec call (negIf g dst (retS r st')) w') := by
      intro st' r w' h
      unfold negIf
      split
      · exact post_mem (fun _ => hmem) fun m _ => h m
      · exact h _
    refine post_guarded (fun _ _ => hneg w (here (enough_ne _ _) (hen rfl)
        (fun _ => by simp only [PState.counter]; omega)))
        (fun _ _ => returned_part hf ht hs (.int hroom hj)) ?_
    intro ch hch
    have hn1 := hnext hch
    split
    · rw [exec_advance hch]
      exact ⟨ht, L, hs, .int (hstep hch) (by simp only; omega)⟩
    · split
      · rw [exec_advance hch]
        exact ⟨ht, L, hs, .int (hstep hch) (by simp only; omega)⟩
      · split
        · refine post_mem (fun _ => hmem) fun m _ => ?_
          rw [exec_advance (w := ⟨w.ds, m⟩) hch]
          split
          · exact hneg _ (eaten hch (fun _ => by simp only [PState.counter]; omega))
          · exact ⟨ht, L, hs, .int (hstep hch) (by simp only; omega)⟩
        · exact hneg w (here (enough_ne _ _) (hen rfl) (fun _ => by simp only [PState.counter]; omega))
  | @uint _ b mn mx j _ _ _ hj =>
    simp only [body]
    have hlim := hroom.high
    have hen : ∀ {r}, enough j mn = r → r = .SUCCESS → (Prog.uint b mn mx).eats c = true →
        lo < w.ds.pos := by
      intro r h1 h2 h3
      rw [h2] at h1
      simp only [Prog.eats, decide_eq_true_eq] at h3
      unfold enough at h1
      split at h1
      · omega
      · cases h1
    refine post_guarded (fun _ _ => here (enough_ne _ _) (hen rfl)
        (fun _ => by simp only [PState.counter]; omega) _)
        (fun _ _ => returned_part hf ht hs (.uint hroom hj)) ?_
    intro ch hch
    have hn1 := hnext hch
    split
    · refine post_mem (fun _ => hmem) fun m _ => ?_
      rw [exec_advance (w := ⟨w.ds, m⟩) hch]
      split
      · exact eaten hch (fun _ => by simp only [PState.counter]; omega) m
      · exact ⟨ht, L, hs, .uint (hstep hch) (by simp only; omega)⟩
    · exact here (enough_ne _ _) (hen rfl) (fun _ => by simp only [PState.counter]; omega) _
  | eoi _ =>
    exact post_guarded (fun _ _ => here (by simp) (fun _ h => by cases h) (fun _ => by simp [PState.counter]) _)
      (fun _ _ => returned_part hf ht hs (.eoi hroom))
      fun _ _ => here (by simp) (by simp) (fun _ => by simp [PState.counter]) _
  | pass _ => exact here (by simp) (fun _ h => by cases h) (fun _ => by simp [PState.counter]) _
  | fail _ => exact here (by simp) (by simp) (fun _ => by simp [PState.counter]) _
  | @seq _ slots ps k p s cs b L L' _ hp hsl hb hk ho hL' =>
    have hf' := hf
    rw [Prog.countsFit, Bool.and_eq_true, decide_eq_true_eq] at hf'
    have hfit := Prog.allCountsFit_get hf'.2 hp
    simp only [body, hp, hsl]
    split
    · exact rfl
    · refine count_call (hc (.seq hp hb hk)) hfit ht hs ho fun r cs' w' M h1 h2 h3 h4 h5 => ?_
      cases r with
      | SUCCESS =>
        have key : ∀ j q, j < k + 1 → ps[j]? = some q → q.eats c = true → lo < w'.ds.pos := by
          intro j q hj hq hqe
          rcases Nat.lt_or_ge j k with hjk | hjk
          · exact Nat.lt_of_lt_of_le (hk j q hjk hq hqe) h3.low
          · have : j = k := by omega
            subst this
            rw [hp] at hq; cases hq
            exact Nat.lt_of_le_of_lt hb (h4 rfl hqe)
        simp only
        split
        · rename_i p' s' hp' hs'
          split
          · exact rfl
          · exact count_mk hμ (Prog.allCountsFit_get hf'.2 hp') h1 h2 h3.high fun h =>
              .seq hp' hs' (Nat.le_trans hb h3.low) key h ((h3.mono hb).marks.append hL')
        · rename_i hno
          refine returned_done h1 h2 ((h3.mono hb).append hL') (by simp) (fun _ he => ?_)
            (fun _ => by simp [PState.counter])
          rw [Prog.eats, Prog.someEats_iff] at he
          obtain ⟨j, q, hj, hqe⟩ := he
          refine key j q ?_ hj hqe
          have hj1 := (List.getElem?_eq_some_iff.1 hj).1
          by_cases hk1 : k + 1 < ps.length
          · exact absurd (List.getElem?_eq_getElem (by omega : k + 1 < slots.length))
              (hno _ _ (List.getElem?_eq_getElem hk1))
          · omega
      | FAILURE =>
      exact returned_done h1 h2 ((h3.mono hb).append hL') (by simp) (by simp)
        (fun _ => by simp [PState.counter])
      | PARTIAL => exact returned_part hf h1 h2 (.seq hp hsl hb hk (h5 rfl) hL')
  | @alt _ ps k p cs b L L' _ hp hb ho hL' =>
    have hfit := Prog.allCountsFit_get hf hp
    simp only [body, hp]
    refine count_call (hc (.alt hp hb)) hfit ht hs ho fun r cs' w' M h1 h2 h3 h4 h5 => ?_
    cases r with
    | FAILURE =>
      simp only
      split
      · rename_i p' hp'
        exact count_mk hμ (Prog.allCountsFit_get hf hp') h1 h2 h3.high fun h =>
          .alt hp' (Nat.le_trans hb h3.low) h ((h3.mono hb).marks.append hL')
      · exact returned_done h1 h2 ((h3.mono hb).append hL') (by simp) (by simp)
          (fun _ => by simp [PState.counter])
    | SUCCESS =>
      refine returned_done h1 h2 ((h3.mono hb).append hL') (by simp) (fun _ he => ?_)
        (fun _ => by simp [PState.counter])
      rw [Prog.eats] at he
      exact Nat.lt_of_le_of_lt hb (h4 rfl (Prog.allEat_get he hp))
    | PARTIAL => exact returned_part hf h1 h2 (.alt hp hb (h5 rfl) hL')
  | @rep _ mn mx p n cs b L L' _ hb he1 he2 ho hL' =>
    have hfit : p.countsFit chk lim c = true := by
      rw [Prog.countsFit, Bool.and_eq_true] at hf; exact hf.2
    have hcnt : chk = true → n ≤ lim := (Counted.rep hb he1 he2 ho hL' : Counted env c chk lim lo
      (.rep mn mx p) (.rep n cs) (L ++ L') w.ds.pos).counter hf
    simp only [body]
    refine count_call (hc (.rep hb)) hfit ht hs ho fun r cs' w' M h1 h2 h3 h4 h5 => ?_
    cases r with
    | SUCCESS =>
      simp only
      split
      · rename_i hmx
        refine returned_done h1 h2 ((h3.mono hb).append hL') (by simp) (fun _ he => ?_) ?_
        · simp only [Prog.eats, Bool.and_eq_true] at he
          exact Nat.lt_of_le_of_lt hb (h4 rfl he.2)
        · intro hk; simp only [PState.counter]
          cases hpe : p.eats c with
          | true =>
            have := he1 hpe
            have := h4 rfl hpe
            have := h3.high
            omega
          | false =>
            rw [Prog.countsFit, Bool.and_eq_true] at hf
            have h1 := hf.1
            simp [hpe, hk] at h1
            omega
      · rename_i hmx
        refine count_mk hμ hfit h1 h2 h3.high fun h =>
          .rep (Nat.le_trans hb h3.low) (fun hpe => ?_) (fun hpe => ?_) h
            ((h3.mono hb).marks.append hL')
        · have := he1 hpe
          have := h4 rfl hpe
          omega
        · intro hk
          have := he2 hpe hk
          omega
    | FAILURE =>
      refine returned_done h1 h2 ((h3.mono hb).append hL') (enough_ne _ _) (fun hr he => ?_)
        (by simp only [PState.counter]; exact hcnt)
      simp only [Prog.eats, Bool.and_eq_true, decide_eq_true_eq] at he
      have := he1 he.2
      have := h3.low
      unfold enough at hr
      split at hr
      · omega
      · cases hr
    | PARTIAL => exact returned_part hf h1 h2 (.rep hb he1 he2 (h5 rfl) hL')
  | @opt _ p cs L m L' _ ho hL' =>
    simp only [body]
    refine count_call (hc .opt) hf ht hs ho fun r cs' w' M h1 h2 h3 h4 h5 => ?_
    cases r with
    | SUCCESS =>
      exact returned_done h1 h2 (h3.append hL') (by simp) (fun _ h => by cases h)
        (fun _ => by simp [PState.counter])
    | FAILURE => exact count_commit h1 h2 (h3.marks.append hL') (by simp) (fun _ => rfl) rfl
    | PARTIAL => exact returned_part hf h1 h2 (.opt (h5 rfl) hL')
  | @not _ p cs L m L' _ ho hL' =>
    simp only [body]
    refine count_call (hc .not) hf ht hs ho fun r cs' w' M h1 h2 h3 h4 h5 => ?_
    cases r with
    | SUCCESS => exact count_commit h1 h2 (h3.marks.append hL') (by simp) (fun _ => rfl) rfl
    | FAILURE => exact count_commit h1 h2 (h3.marks.append hL') (by simp) (fun _ => rfl) rfl
    | PARTIAL => exact returned_part hf h1 h2 (.not (h5 rfl) hL')
  | discard ho => exact count_fwd (hc .discard) hf ht hs ho id (fun _ => rfl) .discard
  | lexeme ho => exact count_fwd (hc .lexeme) hf ht hs ho id (fun _ => rfl) .lexeme
  | bindDst ho => exact count_fwd (hc .bindDst) hf ht hs ho id (fun _ => rfl) .bindDst
  | construct ho =>
    simp only [body]
    refine count_call (L' := []) (hc .construct) hf ht (by rw [List.append_nil]; exact hs) ho
      fun r cs' w' M h1 h2 h3 h4 h5 => ?_
    rw [List.append_nil] at h2
    cases r with
    | SUCCESS =>
      exact post_mem (fun _ => hmem) fun m _ =>
        returned_done (w := ⟨w'.ds, m⟩) h1 h2 h3 (by simp) (fun h h' => h4 h h') (fun _ => by simp [PState.counter])
    | FAILURE => exact returned_done h1 h2 h3 (by simp) (by simp) (fun _ => by simp [PState.counter])
    | PARTIAL => exact returned_part hf h1 h2 (.construct (h5 rfl))
  | action ho =>
    simp only [body]
    refine count_call (L' := []) (hc .action) hf ht (by rw [List.append_nil]; exact hs) ho
      fun r cs' w' M h1 h2 h3 h4 h5 => ?_
    rw [List.append_nil] at h2
    cases r with
    | SUCCESS =>
      exact post_mem (fun _ => hmem) fun m _ =>
        returned_done (w := ⟨w'.ds, m⟩) h1 h2 h3 (by simp) (fun h h' => h4 h h') (fun _ => by simp [PState.counter])
    | FAILURE => exact returned_done h1 h2 h3 (by simp) (by simp) (fun _ => by simp [PState.counter])
    | PARTIAL => exact returned_part hf h1 h2 (.action (h5 rfl))
  | exceptNeg ho =>
    have hf' := hf
    rw [Prog.countsFit, Bool.and_eq_true] at hf'
    simp only [body]
    refine count_call (L' := []) (hc .exceptNeg) hf'.2 ht (by rw [List.append_nil]; exact hs) ho
      fun r cs' w' M h1 h2 h3 h4 h5 => ?_
    rw [List.append_nil] at h2
    cases r with
    | SUCCESS => exact returned_done h1 h2 h3 (by simp) (by simp) (fun _ => by simp [PState.counter])
    | FAILURE =>
      exact count_mk hμ hf'.1 h1 h2 h3.high fun h => .exceptOp h3.low h h3.marks
    | PARTIAL => exact returned_part hf h1 h2 (.exceptNeg (h5 rfl))
  | @exceptOp _ op neg cs b L L' _ hb ho hL' =>
    have hf' := hf
    rw [Prog.countsFit, Bool.and_eq_true] at hf'
    simp only [body]
    refine count_call (hc (.exceptOp hb)) hf'.1 ht hs ho fun r cs' w' M h1 h2 h3 h4 h5 => ?_
    exact ⟨⟨h1, _, h2, (h3.mono hb).append hL', fun h h' => Nat.lt_of_le_of_lt hb (h4 h h'),
      fun h => .exceptOp hb (h5 h) hL'⟩, fun _ => by simp [PState.counter]⟩
  | @listOp _ op sep cs b L m L' _ hb ho hL' =>
    have hf' := hf
    rw [Prog.countsFit, Bool.and_eq_true] at hf'
    simp only [body]
    refine count_call (hc (.listOp hb)) hf'.1 ht hs ho fun r cs' w' M h1 h2 h3 h4 h5 => ?_
    have hM := (h3.mono hb).marks.append hL'
    cases r with
    | SUCCESS =>
      have key : ∀ {x N}, M ++ m :: L' = x :: N →
          Post Err.NotLimit (CountedStep env c chk lim lo S (.list op sep)) (exec call
            (.cancel <| .prepare <| (mk sep .nil bnd).bind fun c'' => contS (.list true c'')) w') := by
        intro x N hx
        rw [hx] at h2 hM
        rw [exec_cancel (p := x) (ps := N ++ S) h2, exec_prepare]
        refine count_mk (L := w'.ds.pos :: N) hμ hf'.2 h1 rfl h3.high fun h => ?_
        exact .listSep (Nat.le_trans hb h3.low) (fun he => Nat.lt_of_le_of_lt hb (h4 rfl he)) h
          (.cons (Nat.le_trans hb h3.low) h3.high hM.tail)
      cases M with
      | nil => exact key rfl
      | cons x M => exact key rfl
    | FAILURE => exact count_commit h1 h2 hM (by simp) (fun _ => rfl) rfl
    | PARTIAL => exact returned_part hf h1 h2 (.listOp hb (h5 rfl) hL')
  | @listSep _ op sep cs b L m L' _ hb hbe ho hL' =>
    have hf' := hf
    rw [Prog.countsFit, Bool.and_eq_true] at hf'
    simp only [body]
    refine count_call (hc (.listSep hb hbe)) hf'.2 ht hs ho fun r cs' w' M h1 h2 h3 h4 h5 => ?_
    have hM := (h3.mono hb).marks.append hL'
    cases r with
    | SUCCESS =>
      have key : ∀ {x N}, M ++ m :: L' = x :: N →
          Post Err.NotLimit (CountedStep env c chk lim lo S (.list op sep)) (exec call
            ((mk op dst bnd).bind fun c'' => contS (.list false c'')) w') := by
        intro x N hx
        rw [hx] at h2 hM
        exact count_mk hμ hf'.1 h1 h2 h3.high fun h => .listOp (Nat.le_trans hb h3.low) h hM
      cases M with
      | nil => exact key rfl
      | cons x M => exact key rfl
    | FAILURE => exact count_commit h1 h2 hM (by simp) (fun _ => rfl) rfl
    | PARTIAL => exact returned_part hf h1 h2 (.listSep hb hbe (h5 rfl) hL')
  | withSkipper ho => exact count_fwd (hc .withSkipper) hf ht hs ho id (fun _ => rfl) .withSkipper
  | @recurNone _ id sk =>
    simp only [body]
    split
    · exact rfl
    · rename_i q hq
      have hq' : (elabP sk RecurChildReqs q).countsFit chk lim c = true :=
        elabP_countsFit q sk _ hf (fun hk => henv.fits hk id q hq)
      refine post_bind ((mk_new hμ env c chk lim _ dst bnd w hq').imp (fun _ h => h) ?_)
      rintro st w' ⟨k, h1, h2, h3, h4⟩
      refine ⟨by rw [h4]; exact ht, List.replicate k w.ds.pos ++ L,
        by rw [h2, hs, List.append_assoc], ?_⟩
      rw [h3]
      refine .recurSome hq (h1 _ _ _ ⟨hroom.low, hroom.high,
        (Between.replicate hroom.low hroom.high).append hroom.marks⟩ ?_)
      rw [List.length_append, List.length_replicate]; omega
  | @recurSome _ id sk q cs _ _ hq ho =>
    have hq' : (elabP sk RecurChildReqs q).countsFit chk lim c = true :=
      elabP_countsFit q sk _ hf (fun hk => henv.fits hk id q hq)
    simp only [body, hq]
    exact count_fwd (hc (.recur hq)) hq' ht hs ho (fun h => by rw [elabP_eats]; exact henv.eats id q hq h)
      (fun _ => rfl) fun h => .recurSome hq h
  | atomic ho =>
    simp only [body]
    refine count_call (L' := []) (hc .atomic) hf ht (by rw [List.append_nil]; exact hs) ho
      fun r cs' w' M h1 h2 h3 h4 h5 => ?_
    rw [List.append_nil] at h2
    cases r with
    | SUCCESS =>
      exact post_mem (fun _ => hmem) fun m _ =>
        returned_done (w := ⟨w'.ds, m⟩) h1 h2 h3 (by simp) (fun h h' => h4 h h') (fun _ => by simp [PState.counter])
    | FAILURE => exact returned_done h1 h2 h3 (by simp) (by simp) (fun _ => by simp [PState.counter])
    | PARTIAL => exact returned_part hf h1 h2 (.atomic (h5 rfl))
  | @clean _ p cs L m L' _ ho hL' =>
    simp only [body]
    refine count_call (hc .clean) hf ht hs ho fun r cs' w' M h1 h2 h3 h4 h5 => ?_
    cases r with
    | SUCCESS =>
      exact count_cancel h1 h2 (h3.marks.append hL') h3.low h3.high (by simp)
        (fun h h' => h4 h h') rfl
    | FAILURE => exact count_commit h1 h2 (h3.marks.append hL') (by simp) (by simp) rfl
    | PARTIAL => exact returned_part hf h1 h2 (.clean (h5 rfl) hL')
  | @skipping _ s p sc cs b k L L' _ hb ho hnew hL' hk =>
    have hf' := hf
    rw [Prog.countsFit, Bool.and_eq_true] at hf'
    simp only [body]
    refine count_call (hc (.skipper hb)) hf'.1 ht hs ho fun r cs' w' M h1 h2 h3 h4 h5 => ?_
    have hM := (h3.mono hb).append hL'
    have hlen : k ≤ (M ++ L').length := by rw [List.length_append]; omega
    cases r with
    | SUCCESS =>
      exact count_mk hμ hf'.1 h1 h2 h3.high fun h =>
        .skipping (Nat.le_trans hb h3.low) h hnew hM.marks hlen
    | FAILURE => exact ⟨h1, _, h2, .skipped (hnew _ _ _ hM hlen)⟩
    | PARTIAL => exact returned_part hf h1 h2 (.skipping hb (h5 rfl) hnew hL' hk)
  | skipped ho =>
    have hf' := hf
    rw [Prog.countsFit, Bool.and_eq_true] at hf'
    exact count_fwd (hc .skipped) hf'.2 ht hs ho id (fun _ => rfl) .skipped

end
end Abu
