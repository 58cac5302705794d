import Verif.Proofs.Recognise
import Verif.Proofs.Waiting
/-
Programs of tidy patterns on incomplete texts ask for more exactly when the three-valued grammar
semantics says so.
-/
namespace Abu

/-- `consume` as a relation: on the incomplete text `t`, from a state, a position and rollback
points, to a result, a position and rollback points. -/
inductive BigN (env : Env) (t : List Ch) :
    Prog → PState → Nat → List Nat → Res → Nat → List Nat → Prop
  | leaf {p st i S n r st' i' S'} : p.isLeaf = true →
      run env n p .nil .nil st (⟨⟨t, i, S, false⟩, ()⟩ : World Cursor Unit) =
        .ok ((r, st'), ⟨⟨t, i', S', false⟩, ()⟩) →
      BigN env t p st i S r i' S'
  | ret {p st i S cp cs r1 cs' i1 S1 r i' S'} : childOf p st = some (cp, cs) →
      BigN env t cp cs i S r1 i1 S1 → after p st r1 cs' i1 S1 = some (.ret r i' S') →
      BigN env t p st i S r i' S'
  | cont {p st i S cp cs r1 cs' i1 S1 st2 i2 S2 r i' S'} : childOf p st = some (cp, cs) →
      BigN env t cp cs i S r1 i1 S1 → after p st r1 cs' i1 S1 = some (.cont st2 i2 S2) →
      BigN env t p st2 i2 S2 r i' S' → BigN env t p st i S r i' S'
  | recurNone {id sk q i S r i' S'} : env id = some q →
      BigN env t (elabP sk RecurChildReqs q) (fresh (elabP sk RecurChildReqs q)) i
        (List.replicate (marks (elabP sk RecurChildReqs q)) i ++ S) r i' S' →
      BigN env t (.recur id sk) .recurNone i S r i' S'
  | recurSome {id sk q c i S r i' S'} : env id = some q →
      BigN env t (elabP sk RecurChildReqs q) c i S r i' S' →
      BigN env t (.recur id sk) (.recurSome c) i S r i' S'

section
variable {env : Env} {call : Prog → Ref → Ref → PState → World Cursor Unit →
  Out Cursor Unit (Res × PState)}

/-- The world on an incomplete text. -/
abbrev nw (t : List Ch) (i : Nat) (S : List Nat) : World Cursor Unit := ⟨⟨t, i, S, false⟩, ()⟩

/-- Outcome of an iteration of `consume`, up to the state left behind by `return`. -/
inductive IterIsN (t : List Ch) : Option Iter → Out Cursor Unit Step → Prop
  | none {e} : IterIsN t none (.error e)
  | ret {r i S st} : IterIsN t (some (.ret r i S)) (.ok (.ret r st, nw t i S))
  | cont {st i S} : IterIsN t (some (.cont st i S)) (.ok (.cont st, nw t i S))

theorem push_nw (n : Nat) (t : List Ch) (i : Nat) (S : List Nat) :
    push n (nw t i S) = nw t i (List.replicate n i ++ S) := rfl

theorem exec_child_okN {p st cp cs r cs' t i S w} (hc : childOf p st = some (cp, cs))
    (hp : Comp p) (hcall : call cp .nil .nil cs w = .ok ((r, cs'), nw t i S)) :
    IterIsN t (after p st r cs' i S) (exec call (body env p .nil .nil st) w) := by
  revert hc
  fun_cases childOf p st <;> intro hc <;> simp at hc
  case case1 slots ps k c =>
    obtain ⟨p, hp1, rfl, rfl⟩ := hc
    cases hp with
    | seq _ hl hcs =>
    have : ∃ s, slots[k]? = some s := by
        rw [List.getElem?_eq_some_iff] at hp1
        obtain ⟨h, _⟩ := hp1
        exact ⟨_, List.getElem?_eq_getElem (by omega)⟩
    obtain ⟨s, hs⟩ := this
    simp only [body, hp1, hs, seqDst, exec, hcall]
    cases r <;> simp only [after, exec]
    · cases hq : ps[k + 1]? with
      | none => exact .ret
      | some q =>
        cases hs' : slots[k + 1]? with
        | none => exact .ret
        | some s' =>
          simp only [exec_bind, exec_mk (hcs q (List.mem_of_getElem? hq)), newChild, exec]
          exact .cont
    · exact .ret
    · exact .ret
  case case2 ps k c =>
    obtain ⟨p, hp1, rfl, rfl⟩ := hc
    cases hp with
    | alt _ hcs =>
    simp only [body, hp1, exec, hcall]
    cases r <;> simp only [after, exec]
    · exact .ret
    · cases hq : ps[k + 1]? with
      | none => exact .ret
      | some q =>
        simp only [exec_bind, exec_mk (hcs q (List.mem_of_getElem? hq)), newChild, exec]
        exact .cont
    · exact .ret
  all_goals
    obtain ⟨rfl, rfl⟩ := hc
    cases hp
    simp only [body, exec, hcall]
    cases r <;> simp only [after, exec, Store.op, newChild, exec_bind, exec_mk, *] <;>
      first
      | exact .ret
      | exact .cont
      | (cases S <;> first | exact .none | exact .ret | exact .cont)
      | skip
  case case3.rep.SUCCESS =>
    split
    · exact .ret
    · simp only [exec_bind, exec_mk, *]; exact .cont

theorem run_of_bigN {t p st i S r i' S'} (h : BigN env t p st i S r i' S')
    (henv : ∀ id q sk, env id = some q → Comp sk → Comp (elabP sk RecurChildReqs q))
    (hp : Comp p) : ∀ {st2}, StEq st st2 →
    ∃ n st', run env n p .nil .nil st2 (nw t i S) = .ok ((r, st'), nw t i' S') := by
  induction h with
  | leaf hl h =>
    intro st2 he
    cases he with
    | refl => exact ⟨_, _, h⟩
    | skip a b c =>
      exfalso
      clear hp
      rename_i p i S n r st' i' S'
      cases n with
      | zero => cases h
      | succ n => cases p <;> first | (cases hl; done) | (cases h; done)
  | @ret p st i S cp cs r1 cs' i1 S1 r i' S' hc _ ha ih =>
    intro st2 he
    obtain ⟨n, cs2, hn⟩ := ih (childOf_comp hc hp) (.refl _)
    have h1 := exec_child_okN (env := env) ((childOf_stEq he).trans hc) hp hn
    rw [after_ret_stEq he ha] at h1
    generalize hx : exec (run env n) (body env p .nil .nil st2) (nw t i S) = x at h1
    cases h1
    exact ⟨n + 1, _, by rw [run_succ_eq, hx]⟩
  | @cont p st i S cp cs r1 cs' i1 S1 st3 i2 S2 r i' S' hc _ ha _ ih ih2 =>
    intro st2 he
    obtain ⟨n, cs2, hn⟩ := ih (childOf_comp hc hp) (.refl _)
    have h1 := exec_child_okN (env := env) ((childOf_stEq he).trans hc) hp hn
    obtain ⟨st4, he4, ha4⟩ := after_cont_stEq (cs' := cs2) he ha
    rw [ha4] at h1
    generalize hx : exec (run env n) (body env p .nil .nil st2) (nw t i S) = x at h1
    cases h1
    obtain ⟨m, st', hm⟩ := ih2 hp he4
    refine ⟨max n m + 1, st', ?_⟩
    rw [run_succ_eq, exec_mono (run_mono env (Nat.le_max_left n m)) _ _ (by rw [hx]; simp), hx]
    exact (run_mono env (Nat.le_max_right n m) _ _ _ _ _ (by rw [hm]; simp)).trans hm
  | @recurNone id sk q i S r i' S' hq _ ih =>
    intro st2 he
    cases he
    cases hp with
    | recur hsk =>
    have hcq := henv id q sk hq hsk
    obtain ⟨n, st', hn⟩ := ih hcq (.refl _)
    refine ⟨n + 2, .recurSome st', ?_⟩
    rw [run_succ_eq]
    simp only [body, hq, exec_bind, exec_mk hcq, exec]
    rw [run_succ_eq]
    simp only [body, hq, exec, push_nw, hn]
  | @recurSome id sk q c i S r i' S' hq _ ih =>
    intro st2 he
    cases he
    cases hp with
    | recur hsk =>
    have hcq := henv id q sk hq hsk
    obtain ⟨n, st', hn⟩ := ih hcq (.refl _)
    refine ⟨n + 1, .recurSome st', ?_⟩
    rw [run_succ_eq]
    simp only [body, hq, exec, hn]


theorem nw_of {t p dst bnd st i S} {n : Nat} {a : Res × PState} {w : World Cursor Unit}
    (h : run env n p dst bnd st (nw t i S) = .ok (a, w)) : ∃ i' S', w = nw t i' S' := by
  have h1 := run_text env _ p _ _ _ _ h
  have h2 := run_final env _ p _ _ _ _ h
  obtain ⟨⟨tx, i', S', f⟩, u⟩ := w
  simp only at h1 h2
  subst h1 h2
  exact ⟨i', S', rfl⟩

theorem nw_feed (t : List Ch) (i : Nat) (S : List Nat) : (nw t i S).feed [] true = gw t i S := by
  simp [World.feed, Cursor.feed]

/-- What is said on incomplete text is said on the same text when it is complete. -/
theorem big_of_bigN (henv : ∀ id q sk, env id = some q → Comp sk → Comp (elabP sk RecurChildReqs q))
    {t p st i S r i' S'} (hp : Comp p) (hs : NilSt st) (h : BigN env t p st i S r i' S')
    (hr : r ≠ .PARTIAL) : Big env t p st i S r i' S' := by
  obtain ⟨n, st', hn⟩ := run_of_bigN h henv hp (.refl _)
  have hR := resumable env n p .nil .nil st (nw t i S) rfl [] true
  rw [hn, nw_feed] at hR
  generalize hx : run env n p .nil .nil st (gw t i S) = x at hR
  cases hR with
  | done =>
    rw [nw_feed] at hx
    obtain ⟨_, _, h1, h2⟩ := big_of_run henv hp hs hx
    cases h1
    exact h2
  | more => exact absurd rfl hr

theorem leafStep_pass : LeafStep .pass (fun st _ => st = .unit) (fun _ => False) := by
  rintro μ _ env call dst bnd st v u l S m stp w' rfl h
  simp only [body] at h
  cases h
  simp

theorem leafStep_fail : LeafStep .fail (fun st _ => st = .unit) (fun _ => False) := by
  rintro μ _ env call dst bnd st v u l S m stp w' rfl h
  simp only [body] at h
  cases h
  simp

/-- Leaf parsers ask for more exactly if the pattern is open. -/
theorem leaf_asks {t : List Ch} {c P p} (h : LeafOK c P p) {i : Nat} (hi : i ≤ t.length) (S : List Nat) :
    ∃ r i' S', BigN env t P (fresh P) i S r i' S' ∧ (r = .PARTIAL ↔ p.Open (t.drop i)) := by
  obtain ⟨n, r0, st0, i0, hrun, _⟩ := leaf_ok (env := env) (t := t) (N := id) (sk := false)
    (ls := .none) (lf := .none) (x := i) h i S
  have hl : P.isLeaf = true := by cases h <;> rfl
  have hR := resumable env n P .nil .nil (fresh P) (nw t i S) rfl [] true
  rw [nw_feed, hrun] at hR
  generalize hx : run env n P .nil .nil (fresh P) (nw t i S) = x at hR
  cases x with
  | error e => cases hR
  | ok y =>
    obtain ⟨⟨r, st'⟩, w⟩ := y
    obtain ⟨i', S', rfl⟩ := nw_of hx
    refine ⟨r, i', S', .leaf hl hx, ?_⟩
    have hw : nw t i S = ⟨⟨t.take i ++ [] ++ t.drop i, (t.take i ++ []).length, S, false⟩, ()⟩ := by
      simp [nw, hi]
    have key : ∀ {I W}, LeafStep P I W → I (fresh P) [] → (r = .PARTIAL ↔ W (t.drop i)) := by
      intro I W hS hI
      rw [hw] at hx
      obtain ⟨h1, h2⟩ := hS.run n hI hx
      refine ⟨fun hr => ?_, fun hW => ?_⟩
      · obtain ⟨_, _, _, h⟩ := h1 hr
        exact h
      · by_cases hr : r = .PARTIAL
        · exact hr
        · exact absurd hW (h2 hr)
    have h0 : ∀ b mx, DigitsOpen b mx [] := fun b mx => ⟨by simp, by simp only [List.length_nil]; omega⟩
    cases h with
    | char => exact key (leafStep_char _) ⟨rfl, rfl⟩
    | strLit => exact key (leafStep_strLit _) ⟨rfl, List.nil_prefix⟩
    | symbol => exact key (leafStep_symbol _) ⟨_, _, rfl, rfl, .inl rfl⟩
    | uint => exact key (leafStep_uint _ _ _) ⟨rfl, h0 _ _⟩
    | uint1 => exact key (leafStep_uint _ _ _) ⟨rfl, h0 _ _⟩
    | int => exact key (leafStep_int _ _ _) (.inl ⟨rfl, rfl⟩)
    | eoi => exact key leafStep_eoi ⟨rfl, rfl⟩
    | pass => exact key leafStep_pass rfl
    | fail => exact key leafStep_fail rfl

theorem after_partial {p st cp cs cs' i S} (hc : childOf p st = some (cp, cs)) :
    after p st .PARTIAL cs' i S = some (.ret .PARTIAL i S) := by
  revert hc
  fun_cases childOf p st <;> intro hc <;> simp at hc <;> rfl

theorem after_not_partial {p st r cs i S r' i' S'} (hr : r ≠ .PARTIAL)
    (h : after p st r cs i S = some (.ret r' i' S')) : r' ≠ .PARTIAL := by
  revert h
  fun_cases after p st r cs i S <;> intro h <;> simp_all [newChild, back]
  all_goals first
    | (rw [← h.1]; first | exact enough_ne _ _ | simp; done)
    | (split at h <;> simp_all <;> (rw [← h.1]; simp))
    | skip

end

/-! ### Asking for more -/

/-- The machine returns on incomplete text, and asks for more if and only if `b`. -/
def Asks (env : Env) (t : List Ch) (P : Prog) (st : PState) (i : Nat) (S : List Nat) (b : Bool) : Prop :=
  ∃ r i' S', BigN env t P st i S r i' S' ∧ (r = .PARTIAL ↔ b = true)

section
variable (env : Env) (t : List Ch) (els elf : Stale)

/-- Fresh programs for `p` return, and ask for more if and only if `b`. -/
def FA (p : Pat) (i : Nat) (b : Bool) : Prop :=
  ∀ {sk full c ls lf P S}, sk = false → Impl .pass false els elf sk full c ls lf P p →
    Asks env t P (fresh P) i (List.replicate (marks P) i ++ S) b

/-- The same, for programs without adapters. -/
def CoreA (p : Pat) (i : Nat) (b : Bool) : Prop :=
  ∀ {c ls lf P S}, Impl .pass false els elf false false c ls lf P p → isWrap P = false →
    Asks env t P (fresh P) i (List.replicate (marks P) i ++ S) b

def SeqA : List Pat → Nat → Bool → Prop
  | [], _, b => b = false
  | q :: qs, i, b => ∃ bq, FA env t els elf q i bq ∧ (bq = true → b = true) ∧
      (bq = false → (∀ j, PegN env t id q i (some j) → SeqA qs j b) ∧ (PegN env t id q i none → b = false))

def AltA : List Pat → Nat → Bool → Prop
  | [], _, b => b = false
  | q :: qs, i, b => ∃ bq, FA env t els elf q i bq ∧ (bq = true → b = true) ∧
      (bq = false → (∀ j, PegN env t id q i (some j) → b = false) ∧ (PegN env t id q i none → AltA qs i b))

inductive RepA (q : Pat) (X : Nat → Bool → Prop) : Nat → Nat → Bool → Prop
  | wait {mx i} : X i true → RepA q X mx i true
  | stop {mx i} : X i false → PegN env t id q i none → RepA q X mx i false
  | last {i} : X i false → RepA q X 1 i false
  | more {mx i j b} : mx ≠ 1 → X i false → PegN env t id q i (some j) → RepA q X (mx - 1) j b →
      RepA q X mx i b

/-- What is needed of the items of repetitions. -/
def ItemA (q : Pat) (i : Nat) (b : Bool) : Prop :=
  FA env t els elf q i b ∧ ∀ qs, q = .seq qs → SeqA env t els elf qs i b

structure TA (p : Pat) (i : Nat) (b : Bool) : Prop where
  fh : FA env t els elf p i b
  seq : ∀ qs, p = .seq qs → SeqA env t els elf qs i b
  alt : ∀ qs, p = .alt qs → AltA env t els elf qs i b
  rep : ∀ mn mx q, p = .rep mn mx q → RepA env t q (ItemA env t els elf q) mx i b

end

section
variable {env : Env} {t : List Ch} {els elf : Stale} (henv : env.tidy false els elf)
include henv

theorem asks_of {P st i S cp cs bc b}
    (hcfg : Cfg env t .pass id false els elf P st i S (fun _ _ _ => True)) (hP : Comp P) (hs : NilSt st)
    (hc : childOf P st = some (cp, cs)) (hchild : Asks env t cp cs i S bc) (hstop : bc = true → b = true)
    (hret : bc = false → ∀ r i1 S1 cs' r' i' S', Big env t cp cs i S r i1 S1 →
      after P st r cs' i1 S1 = some (.ret r' i' S') → b = false)
    (hnext : bc = false → ∀ r i1 S1 cs' st2 i2 S2, Big env t cp cs i S r i1 S1 →
      after P st r cs' i1 S1 = some (.cont st2 i2 S2) → Asks env t P st2 i2 S2 b) :
    Asks env t P st i S b := by
  obtain ⟨hl, hr⟩ := childOf_some hc
  obtain ⟨cp', cs'', hc', cpost, hcc, hn⟩ := cfg_step (useSk := false) (by simp) hcfg hl hr
  rw [hc] at hc'
  cases hc'
  obtain ⟨r, i1, S1, hb, hiff⟩ := hchild
  cases bc with
  | true =>
    have := hiff.2 rfl
    subst this
    exact ⟨_, _, _, .ret (cs' := .unit) hc hb (after_partial hc), by simp [hstop rfl]⟩
  | false =>
    have hnp : r ≠ .PARTIAL := fun h => by cases hiff.1 h
    have hb' := big_of_bigN (env_comp henv · · · · ·) (childOf_comp hc hP) (childOf_nil hc hs) hb hnp
    have hp := hn r .unit _ _ (sound (useSk := false) (by simp) (impl_env henv) hb' hcc)
    cases ha : after P st r .unit i1 S1 with
    | none => rw [ha] at hp; exact hp.elim
    | some x =>
      cases x with
      | ret r' i' S' =>
        have hf := hret rfl _ _ _ _ _ _ _ hb' ha
        refine ⟨_, _, _, .ret hc hb ha, ?_⟩
        simp [hf, after_not_partial hnp ha]
      | cont st2 i2 S2 =>
        obtain ⟨r', i', S', h1, h2⟩ := hnext rfl _ _ _ _ _ _ _ hb' ha
        exact ⟨_, _, _, .cont hc hb ha h1, h2⟩

/-- Wrappers return what their child returns, or something else in its place. -/
theorem asks_wrap {P st i S cp cs b}
    (hcfg : Cfg env t .pass id false els elf P st i S (fun _ _ _ => True)) (hP : Comp P) (hs : NilSt st)
    (hc : childOf P st = some (cp, cs)) (hchild : Asks env t cp cs i S b)
    (hnext : ∀ r i1 S1 cs' st2 i2 S2, after P st r cs' i1 S1 ≠ some (.cont st2 i2 S2)) :
    Asks env t P st i S b :=
  asks_of henv hcfg hP hs hc hchild id (fun h _ _ _ _ _ _ _ _ _ => h)
    fun _ _ _ _ _ _ _ _ _ h => absurd h (hnext _ _ _ _ _ _ _)

theorem out_of {sk full c ls lf P p i S r i' S'} (hsk : sk = false)
    (hI : Impl .pass false els elf sk full c ls lf P p)
    (h : Big env t P (fresh P) i (List.replicate (marks P) i ++ S) r i' S') :
    Outcome env t id false c ls lf i p i S r i' S' := by
  subst hsk
  exact child_out (N := id) (useSk := false) (by simp) (impl_env henv) hI rfl (fun _ => rfl) h

theorem fresh_cfg {full c ls lf P p i S} (hI : Impl .pass false els elf false full c ls lf P p) :
    Cfg env t .pass id false els elf P (fresh P) i (List.replicate (marks P) i ++ S) (fun _ _ _ => True) :=
  .fresh (m := i) hI rfl rfl rfl (fun _ => rfl) fun _ _ _ _ => trivial

theorem fa_of_core {p i b} (hcore : CoreA env t els elf p i b) : FA env t els elf p i b := by
  intro sk full c ls lf P S hsk hI
  have hcomp : ∀ {sk full c ls lf P p}, Impl .pass false els elf sk full c ls lf P p → Comp P :=
    fun h => h.comp (by simp)
  induction hI generalizing S with
  | plain h ih => exact ih hcore hsk
  | skip hu => cases hu
  | @clean sk c c' ls lf P p hI ih =>
    subst hsk
    have hI' : Impl .pass false els elf false false c ls lf (.clean P) p := .clean hI
    refine asks_wrap henv (fresh_cfg henv hI') (hcomp hI') (nilSt_fresh _) rfl ?_ ?_
    · rw [marks, rep_succ]
      exact ih hcore rfl
    · intro r _ S1 _ _ _ _ h; cases r <;> cases S1 <;> cases h
  | @atomic sk c ls lf P p hI ih =>
    subst hsk
    have hI' : Impl .pass false els elf false false c ls lf (.atomic P) p := .atomic hI
    refine asks_wrap henv (fresh_cfg henv hI') (hcomp hI') (nilSt_fresh _) rfl (ih hcore rfl) ?_
    intro r _ S1 _ _ _ _ h; cases r <;> cases h
  | leaf h => subst hsk; exact hcore (.leaf (ls := .none) (lf := .none) h) (by cases h <;> rfl)
  | seq a b c d => subst hsk; exact hcore (.seq a b c d) rfl
  | alt a b c => subst hsk; exact hcore (.alt (c := false) a b c) rfl
  | rep a => subst hsk; exact hcore (.rep a) rfl
  | opt a b => subst hsk; exact hcore (.opt (c := false) (lf := .none) a b) rfl
  | not a => subst hsk; exact hcore (.not (c := false) a) rfl
  | discard a => subst hsk; exact hcore (.discard a) rfl
  | lexeme a b => subst hsk; exact hcore (.lexeme a b) rfl
  | lexemeClean a b => subst hsk; exact hcore (.lexemeClean (c := false) a b) rfl
  | bindDst a => subst hsk; exact hcore (.bindDst a) rfl
  | construct a => subst hsk; exact hcore (.construct a) rfl
  | action a => subst hsk; exact hcore (.action a) rfl
  | except a b => subst hsk; exact hcore (.except a b) rfl
  | list a b => subst hsk; exact hcore (.list (c := false) (lf := .none) a b) rfl
  | recur a b c => subst hsk; exact hcore (.recur a b c) rfl

theorem seq_asks {ls lf slots Ps PS}
    (hI : Impl .pass false els elf false false false ls lf (.seq slots Ps) (.seq PS)) :
    ∀ {qs k P i S b}, SeqA env t els elf qs i b → PS.drop k = qs → Ps[k]? = some P →
      Asks env t (.seq slots Ps) (.seq k (fresh P)) i (List.replicate (marks P) i ++ S) b := by
  have hI' := hI
  have hcomp := hI.comp (by simp)
  cases hI with
  | leaf h => cases h
  | seq hne hlen hsl hch =>
    intro qs
    induction qs with
    | nil =>
      intro k P i S b _ hd hP
      rw [List.drop_eq_nil_iff] at hd
      have := (List.getElem?_eq_some_iff.1 hP).1
      omega
    | cons q qs ih =>
      intro k P i S b hs hd hP
      obtain ⟨hq, hd'⟩ : PS[k]? = some q ∧ PS.drop (k + 1) = qs := by
        have hk : k < PS.length := by have := (List.getElem?_eq_some_iff.1 hP).1; omega
        rw [List.drop_eq_getElem_cons hk] at hd
        cases hd
        exact ⟨List.getElem?_eq_getElem hk, rfl⟩
      obtain ⟨bq, h1, h2, h3⟩ := hs
      have hIp := hch k P q hP hq
      refine asks_of henv (.seqAt (sk := false) (x := i) hI' hP rfl rfl rfl (fun _ => rfl) (.refl _ _)
        fun _ _ _ _ => trivial) hcomp (nilSt_fresh P) (by simp [childOf, hP]) (h1 rfl hIp) h2 ?_ ?_
      · intro hbq r i1 S1 cs' r' i' S' hb ha
        obtain ⟨h3, h4⟩ := h3 hbq
        have ho := out_of henv rfl hIp hb
        cases ho with
        | no a => exact h4 a
        | @ok j _ _ a e d =>
          have hlast : qs = [] := by
            simp only [after] at ha
            split at ha
            · cases ha
            · rename_i hno
              cases hp' : Ps[k + 1]? with
              | none => rw [← hd', List.drop_eq_nil_iff]; rw [List.getElem?_eq_none_iff] at hp'; omega
              | some P' =>
                have hlt := (List.getElem?_eq_some_iff.1 hp').1
                exact absurd (List.getElem?_eq_getElem (l := slots) (i := k + 1) (by omega)) (hno _ _ hp')
          have := h3 j a
          rw [hlast] at this
          exact this
      · intro hbq r i1 S1 cs' st2 i2 S2 hb ha
        obtain ⟨h3, h4⟩ := h3 hbq
        have ho := out_of henv rfl hIp hb
        cases ho with
        | no => simp [after] at ha
        | @ok j _ _ a e d =>
          have e : i1 = j := e
          subst e
          simp only [after] at ha
          split at ha
          · rename_i P' s' hP' hs'
            simp only [newChild, Option.some.injEq, Iter.cont.injEq] at ha
            obtain ⟨rfl, rfl, rfl⟩ := ha
            exact ih (h3 _ a) hd' hP'
          · cases ha

theorem alt_asks {c ls lf Ps PS}
    (hI : Impl .pass false els elf false false c ls lf (.alt Ps) (.alt PS)) :
    ∀ {qs k P i S b}, AltA env t els elf qs i b → PS.drop k = qs → Ps[k]? = some P →
      Asks env t (.alt Ps) (.alt k (fresh P)) i (List.replicate (marks P) i ++ S) b := by
  have hI' := hI
  have hcomp := hI.comp (by simp)
  cases hI with
  | leaf h => cases h
  | alt hne hlen hch =>
    intro qs
    induction qs with
    | nil =>
      intro k P i S b _ hd hP
      rw [List.drop_eq_nil_iff] at hd
      have := (List.getElem?_eq_some_iff.1 hP).1
      omega
    | cons q qs ih =>
      intro k P i S b hs hd hP
      obtain ⟨hq, hd'⟩ : PS[k]? = some q ∧ PS.drop (k + 1) = qs := by
        have hk : k < PS.length := by have := (List.getElem?_eq_some_iff.1 hP).1; omega
        rw [List.drop_eq_getElem_cons hk] at hd
        cases hd
        exact ⟨List.getElem?_eq_getElem hk, rfl⟩
      obtain ⟨bq, h1, h2, h3⟩ := hs
      have hIp := hch k P q hP hq
      refine asks_of henv (.altAt (sk := false) hI' hP rfl rfl rfl (.refl _ _)
        fun _ _ _ _ => trivial) hcomp (nilSt_fresh P) (by simp [childOf, hP]) (h1 rfl hIp) h2 ?_ ?_
      · intro hbq r i1 S1 cs' r' i' S' hb ha
        obtain ⟨h3, h4⟩ := h3 hbq
        have ho := out_of henv rfl hIp hb
        cases ho with
        | ok a => exact h3 _ a
        | no a =>
          have hlast : qs = [] := by
            simp only [after] at ha
            split at ha
            · cases ha
            · rename_i hp'
              rw [← hd', List.drop_eq_nil_iff]; rw [List.getElem?_eq_none_iff] at hp'; omega
          have := h4 a
          rw [hlast] at this
          exact this
      · intro hbq r i1 S1 cs' st2 i2 S2 hb ha
        obtain ⟨h3, h4⟩ := h3 hbq
        have ho := out_of henv rfl hIp hb
        cases ho with
        | ok => simp [after] at ha
        | no a e d =>
          have e : i1 = i := d rfl
          subst e
          simp only [after] at ha
          split at ha
          · rename_i P' hP'
            simp only [newChild, Option.some.injEq, Iter.cont.injEq] at ha
            obtain ⟨rfl, rfl, rfl⟩ := ha
            exact ih (h4 a) hd' hP'
          · cases ha

theorem rep_asks {ls lf mn mx P q}
    (hI : Impl .pass false els elf false false false ls lf (.rep mn mx P) (.rep mn mx q))
    {X : Nat → Bool → Prop} (hX : ∀ i b, X i b → FA env t els elf q i b) {mx' i b}
    (h : RepA env t q X mx' i b) : ∀ {n S}, mx' = mx - n → (mx = 0 ∨ n < mx) →
      Asks env t (.rep mn mx P) (.rep n (fresh P)) i (List.replicate (marks P) i ++ S) b := by
  have hI' := hI
  have hcomp := hI.comp (by simp)
  cases hI with
  | leaf h => cases h
  | rep hch =>
    have hcfg : ∀ {n i S}, (mx = 0 ∨ n < mx) → Cfg env t .pass id false els elf (.rep mn mx P)
        (.rep n (fresh P)) i (List.replicate (marks P) i ++ S) (fun _ _ _ => True) := fun {n i S} hn =>
      .repAt (sk := false) (x := i) hI' hn (fun _ => rfl) rfl rfl rfl (.refl _ _) fun _ _ _ _ => trivial
    induction h with
    | wait hx =>
      intro n S hmx hn
      exact asks_of henv (hcfg hn) hcomp (nilSt_fresh P) rfl (hX _ _ hx rfl hch) id (by simp) (by simp)
    | stop hx hno =>
      intro n S hmx hn
      refine asks_of henv (hcfg hn) hcomp (nilSt_fresh P) rfl (hX _ _ hx rfl hch) id
        (fun _ _ _ _ _ _ _ _ _ _ => rfl) ?_
      intro _ r i1 S1 cs' st2 i2 S2 hb ha
      have ho := out_of henv rfl hch hb
      cases ho with
      | ok a => exact absurd (a.unique hno) (by simp)
      | no => simp [after] at ha
    | last hx =>
      intro n S hmx hn
      refine asks_of henv (hcfg hn) hcomp (nilSt_fresh P) rfl (hX _ _ hx rfl hch) id
        (fun _ _ _ _ _ _ _ _ _ _ => rfl) ?_
      intro _ r i1 S1 cs' st2 i2 S2 hb ha
      cases r with
      | FAILURE => simp [after] at ha
      | SUCCESS => rw [after, if_pos (by omega)] at ha; cases ha
      | PARTIAL => simp [after] at ha
    | @more mx' i j b hmx1 hx hy hr ih =>
      intro n S hmx hn
      refine asks_of henv (hcfg hn) hcomp (nilSt_fresh P) rfl (hX _ _ hx rfl hch) (by simp) ?_ ?_
      · intro _ r i1 S1 cs' r' i' S' hb ha
        have ho := out_of henv rfl hch hb
        cases ho with
        | no a => exact absurd (a.unique hy) (by simp)
        | ok a e d =>
          exfalso
          simp only [after] at ha
          split at ha
          · omega
          · cases ha
      · intro _ r i1 S1 cs' st2 i2 S2 hb ha
        have ho := out_of henv rfl hch hb
        cases ho with
        | no a => exact absurd (a.unique hy) (by simp)
        | ok a e d =>
          have := a.unique hy
          cases this
          have e : i1 = j := e
          subst e
          simp only [after] at ha
          split at ha
          · cases ha
          · rename_i hne
            simp only [newChild, Option.some.injEq, Iter.cont.injEq] at ha
            obtain ⟨rfl, rfl, rfl⟩ := ha
            exact ih (by omega) (by omega)

theorem list_asks {c ls lf OP SEP op sep}
    (hI : Impl .pass false els elf false false c ls lf (.list OP SEP) (.list op sep))
    {X : Nat → Bool → Prop} (hX : ∀ i b, X i b → SeqA env t els elf [sep, op] i b) {mx' i b}
    (h : RepA env t (.seq [sep, op]) X mx' i b) : ∀ {S}, mx' = 0 →
      Asks env t (.list OP SEP) (.list true (fresh SEP)) i (List.replicate (marks SEP) i ++ i :: S) b := by
  have hI' := hI
  have hcomp := hI.comp (by simp)
  cases hI with
  | leaf h => cases h
  | @list _ _ c' c'' _ _ _ _ _ _ hop hsep =>
    -- one round: separator, then item
    have round : ∀ {i : Nat} {S : List Nat} {b1 b : Bool}, SeqA env t els elf [sep, op] i b1 →
        (b1 = true → b = true) → (b1 = false → PegN env t id (.seq [sep, op]) i none → b = false) →
        (∀ j S, b1 = false → PegN env t id (.seq [sep, op]) i (some j) →
          Asks env t (.list OP SEP) (.list true (fresh SEP)) j (List.replicate (marks SEP) j ++ j :: S) b) →
        Asks env t (.list OP SEP) (.list true (fresh SEP)) i (List.replicate (marks SEP) i ++ i :: S) b := by
      intro i S b1 b hs ht hf hnext
      obtain ⟨bq, h1, h2, h3⟩ := hs
      refine asks_of henv (.listSep (sk := false) (x := i) hI' (j := i) rfl rfl (.refl _ _) rfl rfl
        fun _ _ _ _ => trivial) hcomp (nilSt_fresh SEP) rfl (h1 rfl hsep) (fun h => ht (h2 h)) ?_ ?_
      · intro hbq r i1 S1 cs' r' i' S' hb ha
        obtain ⟨h3, h4⟩ := h3 hbq
        have ho := out_of henv rfl hsep hb
        cases ho with
        | no a => exact hf (h4 a) (.seqNo a)
        | ok => cases ha
      · intro hbq r i1 S1 cs' st2 i2 S2 hb ha
        obtain ⟨h3, h4⟩ := h3 hbq
        have ho := out_of henv rfl hsep hb
        cases ho with
        | no => cases S1 <;> cases ha
        | @ok j1 _ _ a e d =>
          have e : i1 = j1 := e
          subst e
          obtain ⟨y, S2, rfl, hp, hy⟩ := d.pop (m := i) rfl
          have hjm : y = i := hy (Stale.meet_start_ne _)
          subst hjm
          simp only [after, newChild, Option.some.injEq, Iter.cont.injEq] at ha
          obtain ⟨rfl, rfl, rfl⟩ := ha
          obtain ⟨bo, g1, g2, g3⟩ := h3 _ a
          refine asks_of henv (.listOp (sk := false) (x := y) hI' (j := y) rfl rfl (.refl _ _) a rfl rfl
            fun _ _ _ _ => trivial) hcomp (nilSt_fresh OP) rfl (g1 rfl hop) (fun h => ht (g2 h)) ?_ ?_
          · intro hbo r i3 S3 cs' r' i' S' hb3 ha3
            obtain ⟨g3, g4⟩ := g3 hbo
            have ho := out_of henv rfl hop hb3
            cases ho with
            | no a3 => exact hf (g4 a3) (.seq a (.seqNo a3))
            | ok => cases S3 <;> cases ha3
          · intro hbo r i3 S3 cs' st4 i4 S4 hb3 ha3
            obtain ⟨g3, g4⟩ := g3 hbo
            have ho := out_of henv rfl hop hb3
            cases ho with
            | no => cases S3 <;> cases ha3
            | @ok j2 _ _ a2 e2 d2 =>
              have e2 : i3 = j2 := e2
              subst e2
              cases S3 with
              | nil => cases ha3
              | cons x S3 =>
                simp only [after, newChild, Option.some.injEq, Iter.cont.injEq] at ha3
                obtain ⟨rfl, rfl, rfl⟩ := ha3
                exact hnext _ _ (g3 _ a2) (.seq a (.seq a2 .seqNil))
    induction h with
    | wait hx => intro S _; exact round (hX _ _ hx) id (by simp) (by simp)
    | stop hx hno =>
      intro S _
      exact round (hX _ _ hx) id (fun _ _ => rfl) fun j _ _ hy => absurd (hy.unique hno) (by simp)
    | last => intro _ h; cases h
    | @more mx' i j b hmx hx hy hr ih =>
      intro S hmx
      refine round (hX _ _ hx) (by simp) (fun _ hno => absurd (hno.unique hy) (by simp)) fun j' S _ hy' => ?_
      have := hy'.unique hy
      cases this
      exact ih (by omega)

theorem seq_fa {qs i b} (h : SeqA env t els elf qs i b) : TA env t els elf (.seq qs) i b := by
  refine ⟨fa_of_core henv ?_, fun _ e => by cases e; exact h, fun _ e => (by cases e),
    fun _ _ _ e => by cases e⟩
  intro c ls lf P S hI hw
  have hI' := hI
  cases hI with
  | leaf h => cases h
  | clean => cases hw
  | atomic => cases hw
  | @seq _ _ _ slots Ps _ hne hlen hsl hch =>
    cases Ps with
    | nil => exact absurd rfl hne
    | cons P Ps => exact seq_asks henv hI' h rfl rfl

theorem alt_fa {qs i b} (h : AltA env t els elf qs i b) : TA env t els elf (.alt qs) i b := by
  refine ⟨fa_of_core henv ?_, fun _ e => (by cases e), fun _ e => (by cases e; exact h),
    fun _ _ _ e => by cases e⟩
  intro c ls lf P S hI hw
  have hI' := hI
  cases hI with
  | leaf h => cases h
  | clean => cases hw
  | atomic => cases hw
  | @alt _ _ _ _ Ps _ hne hlen hch =>
    cases Ps with
    | nil => exact absurd rfl hne
    | cons P Ps => exact alt_asks henv hI' h rfl rfl

theorem rep_fa {mn mx q i b} (h : RepA env t q (ItemA env t els elf q) mx i b) :
    TA env t els elf (.rep mn mx q) i b := by
  refine ⟨fa_of_core henv ?_, fun _ e => (by cases e), fun _ e => (by cases e),
    fun _ _ _ e => (by cases e; exact h)⟩
  intro c ls lf P S hI hw
  have hI' := hI
  cases hI with
  | leaf h => cases h
  | clean => cases hw
  | atomic => cases hw
  | rep hch => exact rep_asks henv hI' (fun i b hx => hx.1) h rfl (by omega)

theorem fa_only {p i b} (h : CoreA env t els elf p i b) (h1 : ∀ qs, p ≠ .seq qs) (h2 : ∀ qs, p ≠ .alt qs)
    (h3 : ∀ mn mx q, p ≠ .rep mn mx q) : TA env t els elf p i b :=
  ⟨fa_of_core henv h, fun _ e => absurd e (h1 _), fun _ e => absurd e (h2 _),
    fun _ _ _ e => absurd e (h3 _ _ _)⟩

omit henv in
theorem TA.item {p i b} (h : TA env t els elf p i b) : ItemA env t els elf p i b := ⟨h.fh, h.seq⟩

theorem opt_fa {p i b} (h : FA env t els elf p i b) : TA env t els elf (.opt p) i b := by
  refine fa_only henv ?_ (by simp) (by simp) (by simp)
  intro c ls lf P S hI hw
  have hI' := hI
  cases hI with
  | leaf h => cases h
  | clean => cases hw
  | atomic => cases hw
  | @opt _ _ c' _ _ P _ hst hch =>
    refine asks_wrap henv (fresh_cfg henv hI') (hI'.comp (by simp)) (nilSt_fresh _) rfl ?_ ?_
    · rw [marks, rep_succ]
      exact h rfl hch
    · intro r _ S1 _ _ _ _ h; cases r <;> cases S1 <;> cases h

theorem not_fa {p i b} (h : FA env t els elf p i b) : TA env t els elf (.not p) i b := by
  refine fa_only henv ?_ (by simp) (by simp) (by simp)
  intro c ls lf P S hI hw
  have hI' := hI
  cases hI with
  | leaf h => cases h
  | clean => cases hw
  | atomic => cases hw
  | @not _ _ c' _ _ P _ hch =>
    refine asks_wrap henv (fresh_cfg henv hI') (hI'.comp (by simp)) (nilSt_fresh _) rfl ?_ ?_
    · rw [marks, rep_succ]
      exact h rfl hch
    · intro r _ S1 _ _ _ _ h; cases r <;> cases S1 <;> cases h

theorem except_fa {op neg i bn b} (h : FA env t els elf neg i bn) (ht : bn = true → b = true)
    (hy : bn = false → ∀ j, PegN env t id neg i (some j) → b = false)
    (h2 : bn = false → PegN env t id neg i none → FA env t els elf op i b) :
    TA env t els elf (.except op neg) i b := by
  refine fa_only henv ?_ (by simp) (by simp) (by simp)
  intro c ls lf P S hI hw
  have hI' := hI
  have hcomp := hI.comp (by simp)
  cases hI with
  | leaf h => cases h
  | clean => cases hw
  | atomic => cases hw
  | @except _ _ _ OP NEG _ _ hop hneg =>
    refine asks_of henv (fresh_cfg henv hI') hcomp (nilSt_fresh _) rfl (h rfl hneg) ht ?_ ?_
    · intro hbn r i1 S1 cs' r' i' S' hb ha
      have ho := out_of henv rfl hneg hb
      cases ho with
      | ok a => exact hy hbn _ a
      | no a e d => cases ha
    · intro hbn r i1 S1 cs' st2 i2 S2 hb ha
      have ho := out_of henv rfl hneg hb
      cases ho with
      | ok => cases ha
      | no a e d =>
        have e : i1 = i := d rfl
        subst e
        simp only [after, fresh, newChild, Option.some.injEq, Iter.cont.injEq] at ha
        obtain ⟨rfl, rfl, rfl⟩ := ha
        refine asks_wrap henv (.exceptOp (sk := false) hI' rfl rfl (.refl _ _) fun _ _ _ _ => trivial)
          hcomp (nilSt_fresh OP) rfl (h2 hbn a rfl hop) ?_
        intro r _ S1 _ _ _ _ h; cases r <;> cases h

theorem list_fa {op sep i bo b} (h : FA env t els elf op i bo) (ht : bo = true → b = true)
    (hno : bo = false → PegN env t id op i none → b = false)
    (h2 : bo = false → ∀ j, PegN env t id op i (some j) → RepA env t (.seq [sep, op])
      (ItemA env t els elf (.seq [sep, op])) 0 j b) :
    TA env t els elf (.list op sep) i b := by
  refine fa_only henv ?_ (by simp) (by simp) (by simp)
  intro c ls lf P S hI hw
  have hI' := hI
  have hcomp := hI.comp (by simp)
  cases hI with
  | leaf h => cases h
  | clean => cases hw
  | atomic => cases hw
  | @list _ _ _ _ _ _ OP SEP _ _ hop hsep =>
    refine asks_of henv (fresh_cfg henv hI') hcomp (nilSt_fresh _) rfl ?_ ht ?_ ?_
    · rw [marks, rep_succ]
      exact h rfl hop
    · intro hbo r i1 S1 cs' r' i' S' hb ha
      rw [marks, rep_succ] at hb
      have ho := out_of henv rfl hop hb
      cases ho with
      | no a => exact hno hbo a
      | ok => cases S1 <;> cases ha
    · intro hbo r i1 S1 cs' st2 i2 S2 hb ha
      rw [marks, rep_succ] at hb
      have ho := out_of henv rfl hop hb
      cases ho with
      | no => cases S1 <;> cases ha
      | @ok j _ _ a e d =>
        have e : i1 = j := e
        subst e
        cases S1 with
        | nil => cases ha
        | cons x S1 =>
          simp only [after, fresh, newChild, Option.some.injEq, Iter.cont.injEq] at ha
          obtain ⟨rfl, rfl, rfl⟩ := ha
          exact list_asks henv hI' (fun _ _ hx => hx.2 _ rfl) (h2 hbo _ a) rfl

theorem lexeme_fa {p i b} (h : FA env t els elf p i b) : TA env t els elf (.lexeme p) i b := by
  refine fa_only henv ?_ (by simp) (by simp) (by simp)
  intro c ls lf P S hI hw
  have hI' := hI
  have hcomp := hI.comp (by simp)
  cases hI with
  | leaf h => cases h
  | clean => cases hw
  | atomic => cases hw
  | @lexeme _ _ _ _ P _ hch hmk =>
    refine asks_wrap henv (fresh_cfg henv hI') hcomp (nilSt_fresh _) rfl (cp := P) (cs := fresh P)
      (h rfl hch) ?_
    intro r _ S1 _ _ _ _ h; cases r <;> cases h
  | @lexemeClean _ _ c' _ _ P _ hch hmk =>
    refine asks_wrap henv (fresh_cfg henv hI') hcomp (nilSt_fresh _) rfl (cp := .clean P)
      (cs := .wrap (fresh P)) ?_ ?_
    · have e : List.replicate (marks (.lexeme (.clean P))) i ++ S = i :: S := by
        rw [marks, marks, hmk]; rfl
      rw [e]
      refine asks_wrap henv (.cleanAt (sk := false) hch hmk rfl rfl
        (fun _ _ _ _ => trivial) fun _ _ _ _ _ => trivial) (.clean (hch.comp (by simp))) (nilSt_fresh P) rfl
        (cp := P) (cs := fresh P) ?_ ?_
      · have := h (S := i :: S) rfl hch
        rw [hmk] at this; exact this
      · intro r _ S1 _ _ _ _ h; cases r <;> cases S1 <;> cases h
    · intro r _ S1 _ _ _ _ h; cases r <;> cases h

theorem recur_fa {id n q i b} (hq : env id = some q) (h : FA env t els elf q i b) :
    TA env t els elf (.recur id n) i b := by
  refine fa_only henv ?_ (by simp) (by simp) (by simp)
  intro c ls lf P S hI hw
  have hI' := hI
  cases hI with
  | leaf h => cases h
  | clean => cases hw
  | atomic => cases hw
  | recur h1 h2 h3 =>
    obtain ⟨r, i', S', hb, hr⟩ := h (S := S) rfl (impl_env henv false (by simp) id q hq)
    exact ⟨r, i', S', .recurNone hq hb, hr⟩

theorem pass_fa {p i b} (h : FA env t els elf p i b) :
    TA env t els elf (.discard p) i b ∧ TA env t els elf (.bindDst p) i b ∧
    (∀ tys, TA env t els elf (.construct tys p) i b) ∧ (∀ a, TA env t els elf (.action a p) i b) := by
  refine ⟨?_, ?_, fun tys => ?_, fun a => ?_⟩
  all_goals
    refine fa_only henv ?_ (by simp) (by simp) (by simp)
    intro c ls lf P S hI hw
    have hI' := hI
    cases hI with
    | leaf h => cases h
    | clean => cases hw
    | atomic => cases hw
    | _ hch =>
      refine asks_wrap henv (fresh_cfg henv hI') (hI'.comp (by simp)) (nilSt_fresh _) rfl (h rfl hch) ?_
      intro r _ S1 _ _ _ _ h; cases r <;> cases h

theorem leaf_fa {p i b} (hl : p.isLeaf = true) (hi : i ≤ t.length) (hb : p.Open (t.drop i) ↔ b = true) :
    TA env t els elf p i b := by
  refine fa_only henv ?_ (by rintro _ rfl; cases hl) (by rintro _ rfl; cases hl) (by rintro _ _ _ rfl; cases hl)
  intro c ls lf P S hI hw
  have h : LeafOK c P p := by
    cases hI with
    | leaf h => exact h
    | clean => cases hw
    | atomic => cases hw
    | _ => cases hl
  obtain ⟨r, i', S', h1, h2⟩ := leaf_asks (env := env) h hi (List.replicate (marks P) i ++ S)
  exact ⟨r, i', S', h1, h2.trans hb⟩

end

/-! ### The grammar -/

theorem Pat.Open.isLeaf {p : Pat} {u} (h : p.Open u) : p.isLeaf = true := by
  cases p <;> first | rfl | exact h.elim

/-- What is said of the text so far holds of it when nothing follows. -/
theorem Scan.peg {env t p i a} (h : Scan env t p i a) :
    match a with
    | .more => True
    | .no => Peg env t p i none
    | .yes j => Peg env t p i (some j) := by
  induction h with
  | leafMore | seqMore | altMore | repWait | optMore | notMore | exceptMore | listMore => trivial
  | leafNo _ _ h => exact h
  | leaf _ _ h => exact h
  | seqNil => exact .seqNil
  | seqNo _ ih => exact .seqNo ih
  | @seq _ _ _ _ a _ _ ih1 ih2 => cases a <;> first | trivial | exact .seq ih1 ih2
  | altNil => exact .altNil
  | alt _ ih => exact .alt ih
  | @altNo _ _ _ a _ _ ih1 ih2 => cases a <;> first | trivial | exact .altNo ih1 ih2
  | repStop _ ih => exact .repStop ih
  | repFew h _ ih => exact .repFew h ih
  | repLast _ ih => exact .repLast ih
  | @repMore _ _ _ _ _ a h _ _ ih1 ih2 => cases a <;> first | trivial | exact .repMore h ih1 ih2
  | opt _ ih => exact .opt ih
  | optNo _ ih => exact .optNo ih
  | not _ ih => exact .not ih
  | notNo _ ih => exact .notNo ih
  | @discard _ _ a _ ih => cases a <;> first | trivial | exact .discard ih
  | @lexeme _ _ a _ ih => cases a <;> first | trivial | exact .lexeme ih
  | @bindDst _ _ a _ ih => cases a <;> first | trivial | exact .bindDst ih
  | @construct _ _ _ a _ ih => cases a <;> first | trivial | exact .construct ih
  | @action _ _ _ a _ ih => cases a <;> first | trivial | exact .action ih
  | @except _ _ _ a _ _ ih1 ih2 => cases a <;> first | trivial | exact .except ih1 ih2
  | exceptNo _ ih => exact .exceptNo ih
  | listNil _ ih => exact .listNil ih
  | @list _ _ _ _ a _ _ ih1 ih2 => cases a <;> first | trivial | exact .list ih1 ih2
  | @recur _ _ _ _ a hq _ ih => cases a <;> first | trivial | exact .recur hq ih

/-- If there is an outcome when nothing follows, something can be said of the text so far. -/
theorem Peg.scan {env t p i o} (h : Peg env t p i o) :
    Scan env t p i .more ∨ Scan env t p i (o.elim .no .yes) := by
  have leaf : ∀ {p i o}, p.isLeaf = true → Peg env t p i o →
      Scan env t p i .more ∨ Scan env t p i (o.elim .no .yes) := by
    intro p i o hl h
    by_cases ho : p.Open (t.drop i)
    · exact .inl (.leafMore ho)
    · cases o with
      | none => exact .inr (.leafNo hl ho h)
      | some j => exact .inr (.leaf hl ho h)
  induction h with
  | char h1 h2 => exact leaf rfl (.char h1 h2)
  | charNo h1 => exact leaf rfl (.charNo h1)
  | charSymbol h1 h2 => exact leaf rfl (.charSymbol h1 h2)
  | charSymbolNo h1 => exact leaf rfl (.charSymbolNo h1)
  | strLit h1 => exact leaf rfl (.strLit h1)
  | strLitNo h1 => exact leaf rfl (.strLitNo h1)
  | symbol h1 h2 => exact leaf rfl (.symbol h1 h2)
  | symbolNo h1 => exact leaf rfl (.symbolNo h1)
  | uint h1 => exact leaf rfl (.uint h1)
  | uintNo h1 => exact leaf rfl (.uintNo h1)
  | int h1 h2 => exact leaf rfl (.int h1 h2)
  | intNo h1 h2 => exact leaf rfl (.intNo h1 h2)
  | eoi h1 => exact leaf rfl (.eoi h1)
  | eoiNo h1 => exact leaf rfl (.eoiNo h1)
  | pass => exact leaf rfl .pass
  | fail => exact leaf rfl .fail
  | seqNil => exact .inr .seqNil
  | seqNo _ ih => exact ih.imp .seqMore .seqNo
  | seq _ _ ih1 ih2 =>
    rcases ih1 with h1 | h1
    · exact .inl (.seqMore h1)
    · exact ih2.imp (.seq h1) (.seq h1)
  | altNil => exact .inr .altNil
  | alt _ ih => exact ih.imp .altMore .alt
  | altNo _ _ ih1 ih2 =>
    rcases ih1 with h1 | h1
    · exact .inl (.altMore h1)
    · exact ih2.imp (.altNo h1) (.altNo h1)
  | repStop _ ih => exact ih.imp .repWait .repStop
  | repFew h _ ih => exact ih.imp .repWait (.repFew h)
  | repLast _ ih => exact ih.imp .repWait .repLast
  | repMore h _ _ ih1 ih2 =>
    rcases ih1 with h1 | h1
    · exact .inl (.repWait h1)
    · exact ih2.imp (.repMore h h1) (.repMore h h1)
  | opt _ ih => exact ih.imp .optMore .opt
  | optNo _ ih => exact ih.imp .optMore .optNo
  | not _ ih => exact ih.imp .notMore .not
  | notNo _ ih => exact ih.imp .notMore .notNo
  | discard _ ih => exact ih.imp .discard .discard
  | lexeme _ ih => exact ih.imp .lexeme .lexeme
  | bindDst _ ih => exact ih.imp .bindDst .bindDst
  | construct _ ih => exact ih.imp .construct .construct
  | action _ ih => exact ih.imp .action .action
  | except _ _ ih1 ih2 =>
    rcases ih1 with h1 | h1
    · exact .inl (.exceptMore h1)
    · exact ih2.imp (.except h1) (.except h1)
  | exceptNo _ ih => exact ih.imp .exceptMore .exceptNo
  | listNil _ ih => exact ih.imp .listMore .listNil
  | list _ _ ih1 ih2 =>
    rcases ih1 with h1 | h1
    · exact .inl (.listMore h1)
    · exact ih2.imp (.list h1) (.list h1)
  | recur hq _ ih => exact ih.imp (.recur hq) (.recur hq)

theorem signLen_le (l : List Ch) : signLen l ≤ l.length := by
  cases l with
  | nil => simp [signLen]
  | cons c l => simp only [signLen, List.length_cons]; split <;> omega

/-- Matches end within the text. -/
theorem Peg.within {env t p i o} (h : Peg env t p i o) : i ≤ t.length → ∀ j, o = some j → j ≤ t.length := by
  have pre : ∀ {l : List Ch} {i}, l <+: t.drop i → i ≤ t.length → i + l.length ≤ t.length := by
    intro l i h hi
    have := h.length_le
    rw [List.length_drop] at this
    omega
  have run : ∀ {b mx i}, i ≤ t.length → i + digitRun b mx (t.drop i) ≤ t.length := by
    intro b mx i hi
    have := digitRun_le b mx (t.drop i)
    rw [List.length_drop] at this
    omega
  have lt : ∀ {i} {c : Ch}, t[i]? = some c → i + 1 ≤ t.length := by
    intro i c h
    exact (List.getElem?_eq_some_iff.1 h).1
  induction h with
  | char h1 h2 => rintro hi j ⟨⟩; exact lt h1
  | charSymbol h1 h2 => rintro hi j ⟨⟩; exact lt h1
  | strLit h1 => rintro hi j ⟨⟩; exact pre h1 hi
  | symbol h1 h2 => rintro hi j ⟨⟩; exact pre h1.2.2 hi
  | uint h1 => rintro hi j ⟨⟩; exact run hi
  | @int _ _ _ i j h1 h2 =>
    rintro hi _ ⟨⟩
    refine run ?_
    have := signLen_le (t.drop i)
    rw [List.length_drop] at this
    omega
  | charNo | charSymbolNo | strLitNo | symbolNo | uintNo | intNo | eoiNo | fail | seqNo | altNil | repFew
  | notNo | exceptNo => intro _ _ h; cases h
  | eoi | pass | seqNil | repStop | optNo | not | listNil => rintro hi j ⟨⟩; exact hi
  | seq _ _ ih1 ih2 => intro hi j e; exact ih2 (ih1 hi _ rfl) j e
  | altNo _ _ _ ih => exact ih
  | except _ _ _ ih => exact ih
  | repMore _ _ _ ih1 ih2 => intro hi j e; exact ih2 (ih1 hi _ rfl) j e
  | list _ _ ih1 ih2 => intro hi j e; exact ih2 (ih1 hi _ rfl) j e
  | alt _ ih | repLast _ ih | opt _ ih | discard _ ih | lexeme _ ih | bindDst _ ih | construct _ ih
  | action _ ih | recur _ _ ih => exact ih

def Ans.waits : Ans → Bool
  | .more => true
  | _ => false

theorem Ans.eq_more {a : Ans} (h : a.waits = true) : a = .more := by
  cases a <;> first | rfl | cases h

theorem Scan.asks {env t els elf p i a} (henv : env.tidy false els elf) (h : Scan env t p i a) :
    i ≤ t.length → TA env t els elf p i a.waits := by
  have yes : ∀ {p i j j'}, Scan env t p i (.yes j) → PegN env t id p i (some j') → j' = j := by
    intro p i j j' h h'
    exact Option.some.inj (h'.unique h.peg.toN)
  have notNo : ∀ {p i j}, Scan env t p i (.yes j) → ¬ PegN env t id p i none := by
    intro p i j h h'
    cases h'.unique h.peg.toN
  have no : ∀ {p i j}, Scan env t p i .no → ¬ PegN env t id p i (some j) := by
    intro p i j h h'
    cases h'.unique h.peg.toN
  have within : ∀ {p i j}, Scan env t p i (.yes j) → i ≤ t.length → j ≤ t.length :=
    fun h hi => Peg.within h.peg hi _ rfl
  induction h with
  | leafMore h => intro hi; exact leaf_fa henv h.isLeaf hi (by simp [h, Ans.waits])
  | leafNo hl h _ => intro hi; exact leaf_fa henv hl hi (by simp [h, Ans.waits])
  | leaf hl h _ => intro hi; exact leaf_fa henv hl hi (by simp [h, Ans.waits])
  | seqNil => intro hi; exact seq_fa henv rfl
  | seqMore _ ih =>
    intro hi
    exact seq_fa henv ⟨true, (ih hi).fh, id, nofun⟩
  | seqNo h ih =>
    intro hi
    exact seq_fa henv ⟨false, (ih hi).fh, nofun, fun _ => ⟨fun _ h' => absurd h' (no h), fun _ => rfl⟩⟩
  | seq h _ ih1 ih2 =>
    intro hi
    refine seq_fa henv ⟨false, (ih1 hi).fh, nofun, fun _ => ⟨fun _ h' => ?_, fun h' => absurd h' (notNo h)⟩⟩
    rw [yes h h']
    exact (ih2 (within h hi)).seq _ rfl
  | altNil => intro hi; exact alt_fa henv rfl
  | altMore _ ih =>
    intro hi
    exact alt_fa henv ⟨true, (ih hi).fh, id, nofun⟩
  | alt h ih =>
    intro hi
    exact alt_fa henv ⟨false, (ih hi).fh, nofun, fun _ => ⟨fun _ _ => rfl, fun h' => absurd h' (notNo h)⟩⟩
  | altNo h _ ih1 ih2 =>
    intro hi
    exact alt_fa henv ⟨false, (ih1 hi).fh, nofun, fun _ => ⟨fun _ h' => absurd h' (no h),
      fun _ => (ih2 hi).alt _ rfl⟩⟩
  | repWait _ ih => intro hi; exact rep_fa henv (.wait (ih hi).item)
  | repStop h ih => intro hi; exact rep_fa henv (.stop (ih hi).item h.peg.toN)
  | repFew _ h ih => intro hi; exact rep_fa henv (.stop (ih hi).item h.peg.toN)
  | repLast h ih => intro hi; exact rep_fa henv (.last (ih hi).item)
  | repMore hm h _ ih1 ih2 =>
    intro hi
    exact rep_fa henv (.more hm (ih1 hi).item h.peg.toN ((ih2 (within h hi)).rep _ _ _ rfl))
  | optMore _ ih | opt _ ih | optNo _ ih => intro hi; exact opt_fa henv (ih hi).fh
  | notMore _ ih | not _ ih | notNo _ ih => intro hi; exact not_fa henv (ih hi).fh
  | discard _ ih => intro hi; exact (pass_fa henv (ih hi).fh).1
  | lexeme _ ih => intro hi; exact lexeme_fa henv (ih hi).fh
  | bindDst _ ih => intro hi; exact (pass_fa henv (ih hi).fh).2.1
  | construct _ ih => intro hi; exact (pass_fa henv (ih hi).fh).2.2.1 _
  | action _ ih => intro hi; exact (pass_fa henv (ih hi).fh).2.2.2 _
  | exceptMore _ ih => intro hi; exact except_fa henv (ih hi).fh id nofun nofun
  | except h _ ih1 ih2 =>
    intro hi
    exact except_fa henv (ih1 hi).fh nofun (fun _ _ h' => absurd h' (no h)) fun _ _ => (ih2 hi).fh
  | exceptNo h ih =>
    intro hi
    exact except_fa henv (ih hi).fh nofun (fun _ _ _ => rfl) fun _ h' => absurd h' (notNo h)
  | listMore _ ih => intro hi; exact list_fa henv (ih hi).fh id nofun nofun
  | listNil h ih =>
    intro hi
    exact list_fa henv (ih hi).fh nofun (fun _ _ => rfl) fun _ _ h' => absurd h' (no h)
  | list h _ ih1 ih2 =>
    intro hi
    refine list_fa henv (ih1 hi).fh nofun (fun _ h' => absurd h' (notNo h)) fun _ _ h' => ?_
    rw [yes h h']
    exact (ih2 (within h hi)).rep _ _ _ rfl
  | recur hq _ ih => intro hi; exact recur_fa henv hq (ih hi).fh

/-! ### From the machine to the user -/

/-- Several calls of `consume` answer what one call answers when all the text is there. -/
theorem Session.once {env p dst} {ops : List SOp} :
    ∀ {st} {w : World Cursor Mem} {r m' rest}, Unfinished ops → w.ds.final = false →
      Session Cursor.addBuffer env p dst st w (ops ++ [.consume]) (.ok (r, m', rest)) →
      ∃ st' w', Evals env p dst dst st (w.feed (opsText ops) false) (.ok ((r, st'), w')) := by
  have feed0 : ∀ {w : World Cursor Mem}, w.ds.final = false → w.feed [] false = w := by
    rintro ⟨⟨t, i, S, f⟩, m⟩ h
    simp only at h
    subst h
    simp [World.feed, Cursor.feed]
  induction ops with
  | nil =>
    intro st w r m' rest _ hf h
    simp only [opsText]
    rw [feed0 hf]
    cases h with
    | verdict he => exact ⟨_, _, he⟩
    | more he h' => cases h'; exact ⟨_, _, he⟩
  | cons op ops ih =>
    intro st w r m' rest hu hf h
    have hu' : Unfinished ops := fun b f hb => hu b f (List.mem_cons_of_mem _ hb)
    cases op with
    | consume =>
      simp only [opsText]
      cases h with
      | verdict he hr _ =>
        obtain ⟨n, hn⟩ := he.2
        have hR := resumable env n p dst dst st w hf (opsText ops) false
        rw [hn] at hR
        generalize hx : run env n p dst dst st (w.feed (opsText ops) false) = x at hR
        cases hR with
        | done => exact ⟨_, _, by simp, n, hx⟩
        | more => exact absurd rfl hr
      | more he h' =>
        obtain ⟨n, hn⟩ := he.2
        have hR := resumable env n p dst dst st w hf (opsText ops) false
        rw [hn] at hR
        generalize run env n p dst dst st (w.feed (opsText ops) false) = x at hR
        cases hR with
        | done h => exact absurd rfl h
        | more h1 h2 h3 =>
          obtain ⟨st2, w2, h4⟩ := ih hu' h1 h'
          exact ⟨st2, w2, (h3 _).2 h4⟩
    | add b f =>
      obtain rfl : f = false := hu b f (by simp)
      cases h with
      | add ha h' =>
        obtain ⟨⟨t, i, S, f⟩, m⟩ := w
        simp only at hf
        subst hf
        cases ha
        obtain ⟨st2, w2, h4⟩ := ih hu' rfl h'
        refine ⟨st2, w2, ?_⟩
        simpa [World.feed, Cursor.feed, opsText, List.append_assoc] using h4

/-- A parser object asks for more if and only if the machine does. -/
theorem object_asks {env p b dst m r m' rest} {ops : List SOp} (hcomp : Comp (topParser p))
    (henv : ∀ id q sk, env id = some q → Comp sk → Comp (elabP sk RecurChildReqs q)) (hu : Unfinished ops)
    (hf : Asks env (opsText ops) (topParser p) (fresh (topParser p)) 0
      (List.replicate (marks (topParser p)) 0) b)
    (hrun : MakeParserRun env p dst m (ops ++ [.consume]) (.ok (r, m', rest))) :
    r = .PARTIAL ↔ b = true := by
  rcases hrun.cursor with ⟨e, he, _⟩ | ⟨st, ⟨ds, m1⟩, hcon, h'⟩
  · cases he
  have her := construct_er (g := id) (topParser p) dst dst (⟨Cursor.start, m⟩ : World Cursor Mem)
  rw [hcon, ← topParser_mapAct (g := id) (fun _ => rfl), Pat.mapAct_id] at her
  have hg : Abu.construct (topParser p) .nil .nil (⟨Cursor.start, ()⟩ : World Cursor Unit) =
      .ok (fresh (topParser p), nw [] 0 (List.replicate (marks (topParser p)) 0)) := by
    have := exec_mk (call := fun _ _ _ _ _ => .error .stuck) hcomp
      (⟨Cursor.start, ()⟩ : World Cursor Unit)
    rw [Abu.construct, this, push]
    simp [Cursor.start]
  have hst : st.erase = fresh (topParser p) ∧
      ds = ⟨[], 0, List.replicate (marks (topParser p)) 0, false⟩ := by
    have hg' : Abu.construct (topParser p) .nil .nil
      (⟨(⟨Cursor.start, m⟩ : World Cursor Mem).ds, ()⟩ : World Cursor Unit) = _ := hg
    rw [hg'] at her
    generalize hx : (Except.ok (fresh (topParser p), nw [] 0 (List.replicate (marks (topParser p)) 0)) :
      Out Cursor Unit PState) = x at her
    cases her
    simp only [Except.ok.injEq, Prod.mk.injEq, World.mk.injEq, and_true] at hx
    exact ⟨hx.1.symm, hx.2.symm⟩
  obtain ⟨h1, rfl⟩ := hst
  obtain ⟨st', w', he⟩ := h'.once hu rfl
  obtain ⟨n, hn⟩ := he.2
  have hr := run_er (g := id) (fun _ => rfl) env n (topParser p) dst dst st
    (World.feed ⟨⟨[], 0, List.replicate (marks (topParser p)) 0, false⟩, m1⟩ (opsText ops) false)
  rw [hn, Env.mapAct_id, ← topParser_mapAct (g := id) (fun _ => rfl), Pat.mapAct_id, h1] at hr
  obtain ⟨r0, i', S', hb, hiff⟩ := hf
  obtain ⟨n0, st0, hn0⟩ := run_of_bigN hb henv hcomp (.refl _)
  generalize hx : run env n (topParser p) .nil .nil (fresh (topParser p)) (_ : World Cursor Unit) = x at hr
  cases hr with
  | ok =>
    have e1 : Evals env (topParser p) .nil .nil (fresh (topParser p))
      (nw (opsText ops) 0 (List.replicate (marks (topParser p)) 0)) _ := ⟨by simp, n0, hn0⟩
    have e2 : Evals env (topParser p) .nil .nil (fresh (topParser p))
      (nw (opsText ops) 0 (List.replicate (marks (topParser p)) 0))
      (.ok (eraseRes (r, st'), (⟨w'.ds, ()⟩ : World Cursor Unit))) := ⟨by simp, n, hx⟩
    have := e1.unique e2
    have e3 : r0 = r := congrArg (fun o : Out Cursor Unit (Res × PState) =>
      match o with | .ok x => x.1.1 | .error _ => r) this
    rw [← e3]
    exact hiff

/-- A parser object for a tidy pattern asks for more if and only if nothing can be said yet. -/
theorem Scan.object {env els elf p a dst m r m' rest} {ops : List SOp} {ls lf} (henv : env.tidy false els elf)
    (hp : p.tidy false els elf false ls lf = true) (hu : Unfinished ops)
    (h : Scan env (opsText ops) p 0 a)
    (hrun : MakeParserRun env p dst m (ops ++ [.consume]) (.ok (r, m', rest))) :
    r = .PARTIAL ↔ a.waits = true := by
  have hf := (h.asks henv (Nat.zero_le _)).fh (S := []) rfl
    (impl_top (r := DefaultReqs) (by simp [DefaultReqs]) rfl hp)
  rw [List.append_nil] at hf
  exact object_asks (comp_elab p .fail hp) (env_comp henv) hu hf hrun

end Abu
