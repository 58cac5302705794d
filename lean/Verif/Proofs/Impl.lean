import Verif.Proofs.Ghost
import Verif.Proofs.Leaf
import Verif.Proofs.PegN
import Verif.Spec.Tidy
/-
A class of parser programs that implement the grammar semantics, in contexts with or without a
skipper.
-/
namespace Abu

theorem Stale.le_refl (a : Stale) : a.le a = true := by cases a <;> rfl

theorem Stale.le_trans {a b c : Stale} (h : a.le b = true) (h' : b.le c = true) :
    a.le c = true := by
  cases a <;> cases b <;> cases c <;> first | rfl | cases h; done | cases h'; done

theorem Stale.meet_left (a b : Stale) : (a.meet b).le a = true := by cases a <;> cases b <;> rfl

theorem Stale.meet_right (a b : Stale) : (a.meet b).le b = true := by cases a <;> cases b <;> rfl

theorem Stale.later_le (a : Stale) : a.later.le a = true := by cases a <;> rfl

theorem Stale.later_meet (a b : Stale) : (a.meet b).later = a.later.meet b.later := by
  cases a <;> cases b <;> rfl

theorem Stale.later_ne (a : Stale) : a.later ≠ .start := by cases a <;> simp [Stale.later]

theorem Stale.later_later (a : Stale) : a.later.later = a.later := by cases a <;> rfl

theorem Stale.le_none {a : Stale} (h : a.le .none = true) : a = .none := by
  cases a <;> first | rfl | cases h

theorem Stale.meet_start_none {a : Stale} (h : a.meet .start = .none) : a = .none := by
  cases a <;> first | rfl | cases h

theorem Stale.meet_start_ne (a : Stale) : a.meet .start ≠ .any := by
  cases a <;> simp [Stale.meet]

/-- `S'` is `S` with some rollback points left on top, of the kind `l`; `x`: where the parser
started, `f`: positions count as the same if `f` is. -/
def Leak (f : Nat → Nat) (x : Nat) (l : Stale) (S' S : List Nat) : Prop :=
  ∃ L, S' = L ++ S ∧ (l = .none → L = []) ∧ (l = .start → ∀ m ∈ L, f m = f x)

section
variable {f : Nat → Nat} {x : Nat}

theorem Leak.refl (l : Stale) (S : List Nat) : Leak f x l S S :=
  ⟨[], rfl, fun _ => rfl, fun _ _ h => by cases h⟩

theorem Leak.trans {a b c : Stale} {S2 S1 S : List Nat} (h : Leak f x a S2 S1)
    (h' : Leak f x b S1 S) (ha : a.le c = true) (hb : b.le c = true) : Leak f x c S2 S := by
  obtain ⟨L, rfl, hL, hs⟩ := h
  obtain ⟨L', rfl, hL', hs'⟩ := h'
  refine ⟨L ++ L', by simp, ?_, ?_⟩
  · rintro rfl
    rw [hL (Stale.le_none ha), hL' (Stale.le_none hb)]; rfl
  · rintro rfl m hm
    rw [List.mem_append] at hm
    rcases hm with hm | hm
    · cases a with
      | none => rw [hL rfl] at hm; cases hm
      | start => exact hs rfl m hm
      | any => cases ha
    · cases b with
      | none => rw [hL' rfl] at hm; cases hm
      | start => exact hs' rfl m hm
      | any => cases hb

theorem Leak.mono {a c : Stale} {S1 S : List Nat} (h : Leak f x a S1 S) (ha : a.le c = true) :
    Leak f x c S1 S := h.trans (Leak.refl c S) ha (Stale.le_refl c)

theorem Leak.eq {S1 S : List Nat} (h : Leak f x .none S1 S) : S1 = S := by
  obtain ⟨L, rfl, hL, _⟩ := h; rw [hL rfl]; rfl

/-- What may be left behind by parts that begin later does not depend on where. -/
theorem Leak.move {y : Nat} {a : Stale} {S1 S : List Nat} (h : Leak f x a S1 S)
    (ha : a ≠ .start) : Leak f y a S1 S := by
  obtain ⟨L, e, hL, _⟩ := h
  exact ⟨L, e, hL, fun h => absurd h ha⟩

theorem Leak.shift {g : Nat → Nat} {y : Nat} {a : Stale} {S1 S : List Nat} (h : Leak f x a S1 S)
    (hf : ∀ m, f m = f x → g m = g y) : Leak g y a S1 S := by
  obtain ⟨L, e, hL, hs⟩ := h
  exact ⟨L, e, hL, fun h m hm => hf m (hs h m hm)⟩

/-- One of the rollback points is removed: the parser's own, or one that was left behind. -/
theorem Leak.pop {a : Stale} {S1 S : List Nat} {m : Nat} (h : Leak f x a S1 (m :: S))
    (hm : f m = f x) : ∃ y S2, S1 = y :: S2 ∧ Leak f x a S2 S ∧ (a ≠ .any → f y = f x) := by
  obtain ⟨L, rfl, hL, hs⟩ := h
  cases L with
  | nil => exact ⟨m, S, rfl, .refl _ _, fun _ => hm⟩
  | cons z L =>
    refine ⟨z, L ++ m :: S, rfl, ⟨L ++ [m], by simp, ?_, ?_⟩, ?_⟩
    · intro h; cases hL h
    · intro h k hk
      rw [List.mem_append, List.mem_singleton] at hk
      rcases hk with hk | rfl
      · exact hs h k (List.mem_cons_of_mem _ hk)
      · exact hm
    · intro h
      cases a with
      | none => cases hL rfl
      | start => exact hs rfl z List.mem_cons_self
      | any => exact absurd rfl h

/-- The parser's own rollback point stays. -/
theorem Leak.keep {a : Stale} {S1 S : List Nat} {m : Nat} (h : Leak f x a S1 (m :: S))
    (hm : f m = f x) (ha : Stale.start.le a = true) : Leak f x a S1 S :=
  h.trans ⟨[m], rfl, (fun e => by rw [e] at ha; cases ha), fun _ k hk => by
    rw [List.mem_singleton] at hk; subst hk; exact hm⟩ (Stale.le_refl _) (Stale.le_refl _)

end

/-- Leaf parsers and the leaf patterns they implement; `c`: failing cleanly. -/
inductive LeafOK : Bool → Prog → Pat → Prop
  | char {c s} : LeafOK c (.char s) (.char s)
  | strLit {s} : LeafOK false (.strLit s) (.strLit s)
  | symbol {n} : LeafOK false (.symbol n) (.symbol n)
  | uint {b mn mx} : (mx = 0 ∨ mn ≤ mx) → LeafOK false (.uint b mn mx) (.uint b mn mx)
  | uint1 {c b mn} : mn ≤ 1 → LeafOK c (.uint b mn 1) (.uint b mn 1)
  | int {b mn mx} : (mx = 0 ∨ mn ≤ mx) → LeafOK false (.int b mn mx) (.int b mn mx)
  | eoi {c} : LeafOK c .eoi .eoi
  | pass {c} : LeafOK c .pass .pass
  | fail {c} : LeafOK c .fail .fail

/-- What a part of a sequence may leave behind when it succeeds: `ls` if it is the last one. -/
def partLeft (ls lf : Stale) (k n : Nat) : Stale :=
  if k = 0 then (if k + 1 = n then ls else ls.meet lf)
  else (if k + 1 = n then ls else ls.meet lf).later

/-- What a part of a sequence may leave behind when it fails. -/
def partLost (lf : Stale) (k : Nat) : Stale := if k = 0 then lf else lf.later

/-- `Impl K useSk els elf sk full c ls lf P p`: the program `P` is for the pattern `p` in a context
with skipper `K` (`sk`) or without. `full`: `P` does its own skipping. `c`: it restores the
position when it fails. `ls`, `lf`: the rollback points it may leave behind when it succeeds,
fails. `els`, `elf`: the same for the patterns of the environment. -/
inductive Impl (K : Prog) (useSk : Bool) (els elf : Stale) :
    (sk full c : Bool) → (ls lf : Stale) → Prog → Pat → Prop
  | plain {c ls lf P p} : Impl K useSk els elf false false c ls lf P p →
      Impl K useSk els elf false true c ls lf P p
  | skip {c ls lf P p} : useSk = true → Impl K useSk els elf true false c ls lf P p →
      Impl K useSk els elf true true c ls lf (.skip K P) p
  | leaf {sk c ls lf P p} : LeafOK c P p → Impl K useSk els elf sk false c ls lf P p
  | clean {sk c c' ls lf P p} : Impl K useSk els elf sk false c' ls (lf.meet .start) P p →
      Impl K useSk els elf sk false c ls lf (.clean P) p
  | atomic {sk c ls lf P p} : Impl K useSk els elf sk false c ls lf P p →
      Impl K useSk els elf sk false c ls lf (.atomic P) p
  | seq {sk ls lf slots Ps ps} : Ps ≠ [] → ps.length = Ps.length → slots.length = Ps.length →
      (∀ (k : Nat) (P : Prog) (p : Pat), Ps[k]? = some P → ps[k]? = some p →
        Impl K useSk els elf sk true false (partLeft ls lf k Ps.length) (partLost lf k) P p) →
      Impl K useSk els elf sk false false ls lf (.seq slots Ps) (.seq ps)
  | alt {sk c ls lf Ps ps} : Ps ≠ [] → ps.length = Ps.length →
      (∀ (k : Nat) (P : Prog) (p : Pat), Ps[k]? = some P → ps[k]? = some p →
        Impl K useSk els elf sk true true ls (if k + 1 = Ps.length then lf else ls.meet lf) P p) →
      Impl K useSk els elf sk false c ls lf (.alt Ps) (.alt ps)
  | rep {sk ls lf mn mx P p} :
      Impl K useSk els elf sk true (mn != mx || mx == 0)
        (if mn ≤ 1 then ls.later else (ls.meet lf).later)
        (if mn = 0 then ls.later else (ls.meet lf).later) P p →
      Impl K useSk els elf sk false false ls lf (.rep mn mx P) (.rep mn mx p)
  | opt {sk c c' ls lf P p} : Stale.start.le ls = true →
      Impl K useSk els elf sk true c' ls .start P p →
      Impl K useSk els elf sk false c ls lf (.opt P) (.opt p)
  | not {sk c c' ls lf P p} : Impl K useSk els elf sk true c' (lf.meet .start) (ls.meet .start) P p →
      Impl K useSk els elf sk false c ls lf (.not P) (.not p)
  | discard {sk full c ls lf P p} : Impl K useSk els elf sk full c ls lf P p →
      Impl K useSk els elf sk false c ls lf (.discard P) (.discard p)
  | lexeme {sk c ls lf P p} : Impl K useSk els elf false false c ls lf P p →
      (sk = true → marks P = 0) →
      Impl K useSk els elf sk false c ls lf (.lexeme P) (.lexeme p)
  | lexemeClean {sk c c' ls lf P p} : Impl K useSk els elf false false c' ls (lf.meet .start) P p →
      marks P = 0 →
      Impl K useSk els elf sk false c ls lf (.lexeme (.clean P)) (.lexeme p)
  | bindDst {sk full c ls lf P p} : Impl K useSk els elf sk full c ls lf P p →
      Impl K useSk els elf sk false c ls lf (.bindDst P) (.bindDst p)
  | construct {sk full c ls lf tys P p} : Impl K useSk els elf sk full c ls lf P p →
      Impl K useSk els elf sk false c ls lf (.construct tys P) (.construct tys p)
  | action {sk full c ls lf a P p} : Impl K useSk els elf sk full c ls lf P p →
      Impl K useSk els elf sk false c ls lf (.action a P) (.action a p)
  | except {sk ls lf OP NEG op neg} : Impl K useSk els elf sk true false ls lf OP op →
      Impl K useSk els elf sk true true lf (ls.meet lf) NEG neg →
      Impl K useSk els elf sk false false ls lf (.except OP NEG) (.except op neg)
  | list {sk c c' c'' ls lf OP SEP op sep} :
      Impl K useSk els elf sk true c' ls.later .none OP op →
      Impl K useSk els elf sk true c'' (ls.later.meet .start) (ls.later.meet .start) SEP sep →
      Impl K useSk els elf sk false c ls lf (.list OP SEP) (.list op sep)
  | recur {sk ls lf id n} : (sk = true → useSk = true) → els.le ls = true →
      elf.le lf = true →
      Impl K useSk els elf sk false false ls lf (.recur id (if sk then K else .fail)) (.recur id n)

section
variable (env : Env) (t : List Ch) (K : Prog) (N : Nat → Nat) (useSk : Bool) (els elf : Stale)

/-- Skipping in a context. -/
def nn (sk : Bool) : Nat → Nat := if sk then N else id

/-- The skipper is a program that creates no rollback point when constructed, and `N` is what
applying it as often as possible does. -/
structure SkipOK (s : Pat) : Prop where
  impl : Impl K useSk els elf false false true .none .none K s
  marks : marks K = 0
  step : ∀ {i j}, PegN env t id s i (some j) → N j = N i
  stop : ∀ {i}, PegN env t id s i none → N i = i
  idem : ∀ i, N (N i) = N i

/-- What the grammar semantics says about a program that is past its own skipping: result,
position (up to skipping) and rollback points; `x`: where the program started. -/
inductive Outcome (sk c : Bool) (ls lf : Stale) (x : Nat) (p : Pat) (i : Nat) (S : List Nat) :
    Res → Nat → List Nat → Prop
  | ok {j i' S'} : PegN env t (nn N sk) p i (some j) → nn N sk i' = nn N sk j →
      Leak (nn N sk) x ls S' S → Outcome sk c ls lf x p i S .SUCCESS i' S'
  | no {i' S'} : PegN env t (nn N sk) p i none → Leak (nn N sk) x lf S' S →
      (c = true → nn N sk i' = nn N sk i) → Outcome sk c ls lf x p i S .FAILURE i' S'

/-- States a program of the class goes through, with what is to be expected in the end; `x`:
where the program started. -/
inductive Cfg : Prog → PState → Nat → List Nat → (Res → Nat → List Nat → Prop) → Prop
  | fresh {sk full c ls lf P p st i m S S0 post} : Impl K useSk els elf sk full c ls lf P p →
      st = fresh P → S0 = List.replicate (marks P) m ++ S → nn N sk m = nn N sk i →
      (full = false → nn N sk i = i) →
      (∀ r i' S', Outcome env t N sk c ls lf i p (nn N sk i) S r i' S' → post r i' S') →
      Cfg P st i S0 post
  | skipped {c ls lf P p sc i m S S0 post} : Impl K useSk els elf true false c ls lf P p →
      S0 = List.replicate (marks P) m ++ S → nn N true m = nn N true i → nn N true i = i →
      (∀ r i' S', Outcome env t N true c ls lf i p i S r i' S' → post r i' S') →
      Cfg (.skip K P) (.skip true sc (Abu.fresh P)) i S0 post
  | seqAt {sk ls lf slots Ps ps k P i m j x S1 S S0 post} :
      Impl K useSk els elf sk false false ls lf (.seq slots Ps) (.seq ps) →
      Ps[k]? = some P → S0 = List.replicate (marks P) m ++ S1 → nn N sk m = nn N sk i →
      nn N sk j = nn N sk i → (k = 0 → nn N sk x = nn N sk i) →
      Leak (nn N sk) x (ls.meet lf) S1 S →
      (∀ r i' S', Outcome env t N sk false ls lf x (.seq (ps.drop k)) j S r i' S' →
        post r i' S') →
      Cfg (.seq slots Ps) (.seq k (Abu.fresh P)) i S0 post
  | altAt {sk c ls lf Ps ps k P i m j S1 S S0 post} :
      Impl K useSk els elf sk false c ls lf (.alt Ps) (.alt ps) →
      Ps[k]? = some P → S0 = List.replicate (marks P) m ++ S1 → nn N sk m = nn N sk i →
      nn N sk j = nn N sk i → Leak (nn N sk) j (ls.meet lf) S1 S →
      (∀ r i' S', Outcome env t N sk true ls lf j (.alt (ps.drop k)) j S r i' S' →
        post r i' S') →
      Cfg (.alt Ps) (.alt k (Abu.fresh P)) i S0 post
  | repAt {sk ls lf mn mx P p n i m j x S1 S S0 post} :
      Impl K useSk els elf sk false false ls lf (.rep mn mx P) (.rep mn mx p) →
      (mx = 0 ∨ n < mx) → (n = 0 → S1 = S) →
      S0 = List.replicate (marks P) m ++ S1 → nn N sk m = nn N sk i →
      nn N sk j = nn N sk i →
      Leak (nn N sk) x (if mn ≤ 1 then ls.later else (ls.meet lf).later) S1 S →
      (∀ r i' S', Outcome env t N sk false ls lf x (.rep (mn - n) (mx - n) p) j S r i' S' →
        post r i' S') →
      Cfg (.rep mn mx P) (.rep n (Abu.fresh P)) i S0 post
  | exceptOp {sk ls lf OP NEG op neg i m S1 S S0 post} :
      Impl K useSk els elf sk false false ls lf (.except OP NEG) (.except op neg) →
      S0 = List.replicate (marks OP) m ++ S1 → nn N sk m = nn N sk i →
      Leak (nn N sk) i (ls.meet lf) S1 S →
      (∀ r i' S', Outcome env t N sk false ls lf i op (nn N sk i) S r i' S' → post r i' S') →
      Cfg (.except OP NEG) (.except true (Abu.fresh OP)) i S0 post
  | listOp {sk c ls lf OP SEP op sep i m j k jm x S1 S S0 post} :
      Impl K useSk els elf sk false c ls lf (.list OP SEP) (.list op sep) →
      S0 = List.replicate (marks OP) m ++ jm :: S1 → nn N sk m = nn N sk i →
      Leak (nn N sk) x ls.later S1 S →
      PegN env t (nn N sk) sep (nn N sk j) (some k) → nn N sk i = nn N sk k →
      nn N sk jm = nn N sk j →
      (∀ r i' S', Outcome env t N sk c ls lf x (.rep 0 0 (.seq [sep, op])) j S r i' S' →
        post r i' S') →
      Cfg (.list OP SEP) (.list false (Abu.fresh OP)) i S0 post
  | listSep {sk c ls lf OP SEP op sep i m j jm x S1 S S0 post} :
      Impl K useSk els elf sk false c ls lf (.list OP SEP) (.list op sep) →
      S0 = List.replicate (marks SEP) m ++ jm :: S1 → nn N sk m = nn N sk i →
      Leak (nn N sk) x ls.later S1 S →
      nn N sk i = nn N sk j → nn N sk jm = nn N sk j →
      (∀ r i' S', Outcome env t N sk c ls lf x (.rep 0 0 (.seq [sep, op])) j S r i' S' →
        post r i' S') →
      Cfg (.list OP SEP) (.list true (Abu.fresh SEP)) i S0 post
  | cleanAt {sk c' ls lf P p i m S S0 post} :
      Impl K useSk els elf false false c' ls (lf.meet .start) P p →
      Abu.marks P = 0 → S0 = m :: S → nn N sk m = nn N sk i →
      (∀ i' S', PegN env t id p i (some i') → Leak (nn N sk) i ls S' S → post .SUCCESS i' S') →
      (∀ i' S', PegN env t id p i none → nn N sk i' = nn N sk i → Leak (nn N sk) i lf S' S →
        post .FAILURE i' S') →
      Cfg (.clean P) (.wrap (Abu.fresh P)) i S0 post

end

section
variable {env : Env} {t : List Ch} {K : Prog} {N : Nat → Nat} {useSk : Bool} {els elf : Stale}

theorem opRun_unit (os : List MemOp) : opRun os () = .ok () := by
  induction os with
  | nil => rfl
  | cons o os ih => exact ih

theorem outOf_unit (r st i S) (os : List MemOp) :
    outOf r st t i S (opRun os ()) = .ok ((r, st), gw t i S) := by
  rw [opRun_unit]; rfl

theorem digitRes_cases {mn mx k : Nat} (h : mx = 0 ∨ mn ≤ mx) (hk : mx ≠ 0 → k ≤ mx) :
    (digitRes mn mx 0 k = .SUCCESS ∧ mn ≤ k) ∨ (digitRes mn mx 0 k = .FAILURE ∧ k < mn) := by
  simp only [digitRes, enough, Nat.zero_add]
  split
  · left; exact ⟨rfl, by omega⟩
  · split
    · left; exact ⟨rfl, by assumption⟩
    · right; exact ⟨rfl, by omega⟩

theorem lookup_eq_find (m : List (Ch × Val)) (c : Ch) :
    m.lookup c = (m.find? (fun e => e.1 == c)).map (·.2) := by
  induction m with
  | nil => rfl
  | cons e m ih =>
    obtain ⟨d, v⟩ := e
    simp only [List.lookup_cons, List.find?_cons]
    have : (c == d) = (d == c) := by
      rw [Bool.eq_iff_iff]; simp only [beq_iff_eq]; exact eq_comm
    rw [this]
    cases d == c
    · exact ih
    · rfl

theorem leaf_ok {sk c ls lf x P p} (h : LeafOK c P p) (i : Nat) (S : List Nat) :
    ∃ n r st' i', run env n P .nil .nil (fresh P) (gw t i S) = .ok ((r, st'), gw t i' S) ∧
      Outcome env t N sk c ls lf x p i S r i' S := by
  cases h with
  | @char c s =>
    cases hc : t[i]? with
    | none =>
      refine ⟨1, .FAILURE, .unit, i, ?_, .no (.charNo fun c h => by rw [hc] at h; cases h)
        (.refl _ _) fun _ => rfl⟩
      rw [run_succ_eq]
      simp only [fresh, body]
      rw [exec_guarded_end (List.getElem?_eq_none_iff.1 hc)]
      rfl
    | some ch =>
      by_cases hv : s.isValid ch = true
      · refine ⟨1, .SUCCESS, .unit, i + 1, ?_, .ok (.char hc hv) rfl (.refl _ _)⟩
        rw [run_succ_eq]
        simp only [fresh, body]
        rw [exec_guarded_char hc]
        simp only [hv, if_true, exec_mem, Store.op]
        rw [exec_advance hc]
        rfl
      · have hv : s.isValid ch = false := by simpa using hv
        refine ⟨1, .FAILURE, .unit, i, ?_, .no (.charNo fun c h => by rw [hc] at h; cases h; exact hv)
          (.refl _ _) fun _ => rfl⟩
        rw [run_succ_eq]
        simp only [fresh, body]
        rw [exec_guarded_char hc]
        simp [hv, exec]
  | @strLit s =>
    obtain ⟨f, st', i', hf, hi⟩ := run_strLit (env := env) (t := t) (S := S) (μ := Unit) s .nil .nil
      s i 0 () rfl
    refine ⟨f, _, st', i', hf, ?_⟩
    split
    · rename_i hp
      rw [hi hp]
      exact .ok (.strLit hp) rfl (.refl _ _)
    · rename_i hp
      exact .no (.strLitNo hp) (.refl _ _) (fun h => by cases h)
  | @symbol root =>
    obtain ⟨f, st', fi, hf⟩ := run_symbol (env := env) (t := t) (S := S) (μ := Unit) root .nil .nil
      () (t.drop i) i root none 0 rfl
    cases hl : longest root (t.drop i) with
    | none =>
      rw [hl] at hf
      exact ⟨f, .FAILURE, st', fi, hf, .no (.symbolNo fun key hk =>
        longest_none hl key hk.1 hk.2.1 hk.2.2) (.refl _ _) fun h => by cases h⟩
    | some b =>
      obtain ⟨k, v⟩ := b
      rw [hl] at hf
      simp only [symOut, outOf_unit] at hf
      obtain ⟨⟨h1, h2, h3⟩, h4⟩ := longest_some hl
      refine ⟨f, .SUCCESS, st', i + k, hf, .ok (j := i + k) ?_ rfl (.refl _ _)⟩
      have hk : ((t.drop i).take k).length = k := by rw [List.length_take]; omega
      have := PegN.symbol (env := env) (t := t) (N := nn N sk) (root := root) (i := i)
        (key := (t.drop i).take k)
        ⟨by intro h; rw [h] at hk; simp at hk; omega, by rw [h3]; rfl, List.take_prefix _ _⟩
        (fun key' hk' => by rw [hk]; exact h4 _ hk'.1 hk'.2.1 hk'.2.2)
      rwa [hk] at this
  | @uint b mn mx hm =>
    obtain ⟨f, st', hf⟩ := run_uint (env := env) (t := t) (S := S) (μ := Unit) b mn mx .nil .nil
      (t.drop i) i 0 () rfl (by omega)
    rw [outOf_unit] at hf
    refine ⟨f, _, st', _, hf, ?_⟩
    rw [Nat.sub_zero]
    rcases digitRes_cases (k := digitRun b mx (t.drop i)) hm (fun h => digitRun_le_max h) with
      ⟨h1, h2⟩ | ⟨h1, h2⟩
    · rw [h1]; exact .ok (.uint h2) rfl (.refl _ _)
    · rw [h1]; exact .no (.uintNo h2) (.refl _ _) (fun h => by cases h)
  | @uint1 c b mn hm =>
    obtain ⟨f, st', hf⟩ := run_uint (env := env) (t := t) (S := S) (μ := Unit) b mn 1 .nil .nil
      (t.drop i) i 0 () rfl (by omega)
    rw [outOf_unit] at hf
    refine ⟨f, _, st', _, hf, ?_⟩
    rw [Nat.sub_zero]
    rcases digitRes_cases (k := digitRun b 1 (t.drop i)) (.inr hm) (fun h => digitRun_le_max h) with
      ⟨h1, h2⟩ | ⟨h1, h2⟩
    · rw [h1]; exact .ok (.uint h2) rfl (.refl _ _)
    · rw [h1]
      have : digitRun b 1 (t.drop i) = 0 := by omega
      exact .no (.uintNo h2) (.refl _ _) (fun _ => by rw [this]; rfl)
  | @int b mn mx hm =>
    obtain ⟨f, st', hf⟩ := run_int (env := env) (t := t) (S := S) (i := i) (μ := Unit) b mn mx .nil
      .nil ()
    rw [outOf_unit] at hf
    refine ⟨f, _, st', _, hf, ?_⟩
    rcases digitRes_cases (k := digitRun b mx (t.drop (i + signLen (t.drop i)))) hm
      (fun h => digitRun_le_max h) with ⟨h1, h2⟩ | ⟨h1, h2⟩
    · rw [h1]; exact .ok (.int rfl h2) rfl (.refl _ _)
    · rw [h1]; exact .no (.intNo rfl h2) (.refl _ _) (fun h => by cases h)
  | eoi =>
    rcases Nat.lt_or_ge i t.length with h | h
    · refine ⟨1, .FAILURE, .unit, i, ?_, .no (.eoiNo h) (.refl _ _) fun _ => rfl⟩
      rw [run_succ_eq]
      simp only [fresh, body]
      rw [exec_guarded_char (List.getElem?_eq_getElem h)]
      rfl
    · refine ⟨1, .SUCCESS, .unit, i, ?_, .ok (.eoi h) rfl (.refl _ _)⟩
      rw [run_succ_eq]
      simp only [fresh, body]
      rw [exec_guarded_end h]
      rfl
  | pass => exact ⟨1, .SUCCESS, .unit, i, rfl, .ok .pass rfl (.refl _ _)⟩
  | fail => exact ⟨1, .FAILURE, .unit, i, rfl, .no .fail (.refl _ _) fun _ => rfl⟩

/-! ### One iteration -/

/-- An iteration ends as expected, or in a state from which the rest will. -/
def IterOK (env : Env) (t : List Ch) (K : Prog) (N : Nat → Nat) (useSk : Bool) (els elf : Stale) (P : Prog)
    (post : Res → Nat → List Nat → Prop) : Option Iter → Prop
  | none => False
  | some (.ret r i S) => post r i S
  | some (.cont st i S) => Cfg env t K N useSk els elf P st i S post

/-- The child is in a state of the class, and the parent can go on with what is to be expected
from it. -/
def StepOK (env : Env) (t : List Ch) (K : Prog) (N : Nat → Nat) (useSk : Bool) (els elf : Stale) (P : Prog)
    (st : PState) (i : Nat) (S : List Nat) (post : Res → Nat → List Nat → Prop) : Prop :=
  ∃ cp cs, childOf P st = some (cp, cs) ∧ ∃ cpost, Cfg env t K N useSk els elf cp cs i S cpost ∧
    ∀ r cs' i1 S1, cpost r i1 S1 →
      IterOK env t K N useSk els elf P post (after P st r cs' i1 S1)

theorem nn_idem {sk} (hN : useSk = true → ∀ i, N (N i) = N i) (hs : sk = true → useSk = true)
    (i : Nat) : nn N sk (nn N sk i) = nn N sk i := by
  cases sk
  · rfl
  · exact hN (hs rfl) i

theorem Impl.hasSk {sk full c ls lf P p} (h : Impl K useSk els elf sk full c ls lf P p) :
    full = true → sk = true → useSk = true := by
  cases h <;> intro h1 h2 <;> first | cases h1; done | cases h2; done | assumption

theorem band_left {a b : Bool} (h : (a && b) = true) : a = true := by
  cases a <;> simp_all

theorem band_right {a b : Bool} (h : (a && b) = true) : b = true := by
  cases b <;> simp_all

theorem partLeft_last {ls lf : Stale} {k n : Nat} (h : k + 1 = n) :
    (partLeft ls lf k n).le ls = true := by
  unfold partLeft; rw [if_pos h]; split
  · exact Stale.le_refl _
  · exact Stale.later_le _

theorem partLeft_more {ls lf : Stale} {k n : Nat} (h : k + 1 ≠ n) :
    (partLeft ls lf k n).le (ls.meet lf) = true := by
  unfold partLeft; rw [if_neg h]; split
  · exact Stale.le_refl _
  · exact Stale.later_le _

theorem partLost_le {lf : Stale} {k : Nat} : (partLost lf k).le lf = true := by
  unfold partLost; split
  · exact Stale.le_refl _
  · exact Stale.later_le _

/-- What a part of a sequence leaves behind, seen from the start of the sequence. -/
theorem part_leak {f : Nat → Nat} {i x k : Nat} {a : Stale} {S1 S : List Nat}
    (h : Leak f i a S1 S) (ha : k ≠ 0 → a ≠ .start) (hx : k = 0 → f x = f i) :
    Leak f x a S1 S := by
  by_cases hk : k = 0
  · exact h.shift fun m hm => by rw [hm, hx hk]
  · exact h.move (ha hk)

theorem partLeft_ne {ls lf : Stale} {k n : Nat} (hk : k ≠ 0) : partLeft ls lf k n ≠ .start := by
  unfold partLeft; rw [if_neg hk]; exact Stale.later_ne _

theorem partLost_ne {lf : Stale} {k : Nat} (hk : k ≠ 0) : partLost lf k ≠ .start := by
  unfold partLost; rw [if_neg hk]; exact Stale.later_ne _

theorem step_seq {sk ls lf slots Ps ps k P i m j x S1 S S0 post}
    (hI : Impl K useSk els elf sk false false ls lf (.seq slots Ps) (.seq ps))
    (hP : Ps[k]? = some P) (hS0 : S0 = List.replicate (marks P) m ++ S1)
    (hm : nn N sk m = nn N sk i) (hj : nn N sk j = nn N sk i)
    (hx : k = 0 → nn N sk x = nn N sk i) (hL : Leak (nn N sk) x (ls.meet lf) S1 S)
    (hpost : ∀ r i' S', Outcome env t N sk false ls lf x (.seq (ps.drop k)) j S r i' S' →
      post r i' S') :
    StepOK env t K N useSk els elf (.seq slots Ps) (.seq k (fresh P)) i S0 post := by
  have hI' := hI
  cases hI with
  | leaf h => cases h
  | seq hne hlen hsl hch =>
    have hk : k < Ps.length := (List.getElem?_eq_some_iff.1 hP).1
    obtain ⟨p, hp⟩ : ∃ p, ps[k]? = some p := ⟨_, List.getElem?_eq_getElem (by omega)⟩
    have hdrop : ps.drop k = p :: ps.drop (k + 1) := by
      rw [List.getElem?_eq_some_iff] at hp
      obtain ⟨h1, h2⟩ := hp
      rw [List.drop_eq_getElem_cons h1, h2]
    rw [hdrop] at hpost
    refine ⟨P, fresh P, by simp [childOf, hP], _,
      .fresh (hch k P p hP hp) rfl hS0 hm (by simp) (fun _ _ _ h => h), ?_⟩
    intro r cs' i1 S1' ho
    cases ho with
    | no h1 h2 h3 =>
      show post _ _ _
      rw [← hj] at h1
      exact hpost _ _ _ (.no (.seqNo h1) ((part_leak h2 partLost_ne hx).trans hL partLost_le
        (Stale.meet_right _ _)) (by simp))
    | @ok j1 _ _ h1 h2 h3 =>
      rw [← hj] at h1
      have h3 := part_leak h3 partLeft_ne hx
      cases hq : Ps[k + 1]? with
      | none =>
        have hk1 : k + 1 = Ps.length := by rw [List.getElem?_eq_none_iff] at hq; omega
        have hd : ps.drop (k + 1) = [] := by rw [List.drop_eq_nil_iff]; omega
        simp only [after, hq, IterOK]
        rw [hd] at hpost
        exact hpost _ _ _ (.ok (.seq h1 .seqNil) h2
          (h3.trans hL (partLeft_last hk1) (Stale.meet_left _ _)))
      | some Q =>
        have hk1 : k + 1 < Ps.length := (List.getElem?_eq_some_iff.1 hq).1
        obtain ⟨sl, hs⟩ : ∃ sl, slots[k + 1]? = some sl := ⟨_, List.getElem?_eq_getElem (by omega)⟩
        simp only [after, hq, hs, newChild, IterOK]
        refine .seqAt hI' hq rfl rfl h2.symm (by omega)
          (h3.trans hL (partLeft_more (by omega)) (Stale.le_refl _)) ?_
        intro r i' S' ho
        cases ho with
        | ok a b c => exact hpost _ _ _ (.ok (.seq h1 a) b c)
        | no a b c => exact hpost _ _ _ (.no (.seq h1 a) b (by simp))

theorem step_alt (hN : useSk = true → ∀ i, N (N i) = N i) {sk c ls lf Ps ps k P i m j S1 S S0 post}
    (hI : Impl K useSk els elf sk false c ls lf (.alt Ps) (.alt ps))
    (hP : Ps[k]? = some P) (hS0 : S0 = List.replicate (marks P) m ++ S1)
    (hm : nn N sk m = nn N sk i) (hj : nn N sk j = nn N sk i)
    (hL : Leak (nn N sk) j (ls.meet lf) S1 S)
    (hpost : ∀ r i' S', Outcome env t N sk true ls lf j (.alt (ps.drop k)) j S r i' S' →
      post r i' S') :
    StepOK env t K N useSk els elf (.alt Ps) (.alt k (fresh P)) i S0 post := by
  have hI' := hI
  cases hI with
  | leaf h => cases h
  | alt hne hlen hch =>
    have hk : k < Ps.length := (List.getElem?_eq_some_iff.1 hP).1
    obtain ⟨p, hp⟩ : ∃ p, ps[k]? = some p := ⟨_, List.getElem?_eq_getElem (by omega)⟩
    have hdrop : ps.drop k = p :: ps.drop (k + 1) := by
      rw [List.getElem?_eq_some_iff] at hp
      obtain ⟨h1, h2⟩ := hp
      rw [List.drop_eq_getElem_cons h1, h2]
    rw [hdrop] at hpost
    have hIp := hch k P p hP hp
    have hsh : ∀ {a S2 S3}, Leak (nn N sk) i a S2 S3 → Leak (nn N sk) j a S2 S3 :=
      fun h => h.shift fun m hm => by rw [hm, hj]
    refine ⟨P, fresh P, by simp [childOf, hP], _,
      .fresh hIp rfl hS0 hm (by simp) (fun _ _ _ h => h), ?_⟩
    intro r cs' i1 S1' ho
    cases ho with
    | ok h1 h2 h3 =>
      show post _ _ _
      rw [← hj] at h1
      exact hpost _ _ _ (.ok (.alt h1) h2 ((hsh h3).trans hL (Stale.le_refl _)
        (Stale.meet_left _ _)))
    | no h1 h2 h3 =>
      have h3 := h3 rfl
      rw [nn_idem hN (hIp.hasSk rfl), ← hj] at h3
      rw [← hj] at h1
      cases hq : Ps[k + 1]? with
      | none =>
        have hk1 : k + 1 = Ps.length := by rw [List.getElem?_eq_none_iff] at hq; omega
        have hd : ps.drop (k + 1) = [] := by rw [List.drop_eq_nil_iff]; omega
        simp only [after, hq, IterOK]
        rw [hd] at hpost
        rw [if_pos hk1] at h2
        exact hpost _ _ _ (.no (.altNo h1 .altNil) ((hsh h2).trans hL (Stale.le_refl _)
          (Stale.meet_right _ _)) fun _ => h3)
      | some Q =>
        have hk1 : k + 1 < Ps.length := (List.getElem?_eq_some_iff.1 hq).1
        simp only [after, hq, newChild, IterOK]
        rw [if_neg (by omega)] at h2
        refine .altAt hI' hq rfl rfl h3.symm ((hsh h2).trans hL (Stale.le_refl _)
          (Stale.le_refl _)) ?_
        intro r i' S' ho
        cases ho with
        | ok a b c => exact hpost _ _ _ (.ok (.altNo h1 a) b c)
        | no a b c => exact hpost _ _ _ (.no (.altNo h1 a) b c)

theorem step_rep (hN : useSk = true → ∀ i, N (N i) = N i)
    {sk ls lf mn mx P p n i m j x S1 S S0 post}
    (hI : Impl K useSk els elf sk false false ls lf (.rep mn mx P) (.rep mn mx p))
    (hn : mx = 0 ∨ n < mx) (hS1 : n = 0 → S1 = S) (hS0 : S0 = List.replicate (marks P) m ++ S1)
    (hm : nn N sk m = nn N sk i) (hj : nn N sk j = nn N sk i)
    (hL : Leak (nn N sk) x (if mn ≤ 1 then ls.later else (ls.meet lf).later) S1 S)
    (hpost : ∀ r i' S', Outcome env t N sk false ls lf x (.rep (mn - n) (mx - n) p) j S r i' S' →
      post r i' S') :
    StepOK env t K N useSk els elf (.rep mn mx P) (.rep n (fresh P)) i S0 post := by
  have hI' := hI
  cases hI with
  | leaf h => cases h
  | rep hch =>
    refine ⟨P, fresh P, rfl, _, .fresh hch rfl hS0 hm (by simp) (fun _ _ _ h => h), ?_⟩
    intro r cs' i1 S1' ho
    cases ho with
    | no h1 h2 h3 =>
      rw [← hj] at h1
      simp only [after, IterOK, enough]
      split
      · rename_i hmn
        have h0 : mn - n = 0 := by omega
        refine hpost _ _ _ (.ok (j := j) ?_ ?_ ?_)
        · rw [h0]; exact .repStop h1
        · rw [h3, nn_idem hN (hch.hasSk rfl), hj]
          by_cases hmx : mx = 0
          · simp [hmx]
          · have : mn ≠ mx := by omega
            simp [this]
        · refine Leak.trans (h2.move ?_) hL ?_ ?_
          · split <;> exact Stale.later_ne _
          · split
            · exact Stale.later_le _
            · exact Stale.le_trans (Stale.later_le _) (Stale.meet_left _ _)
          · split
            · exact Stale.later_le _
            · exact Stale.le_trans (Stale.later_le _) (Stale.meet_left _ _)
      · rename_i hmn
        refine hpost _ _ _ (.no ?_ ?_ (by simp))
        · exact .repFew (by omega) h1
        · rw [if_neg (by omega)] at h2
          refine Leak.trans (b := lf) (h2.move (Stale.later_ne _)) ?_
            (Stale.le_trans (Stale.later_le _) (Stale.meet_right _ _)) (Stale.le_refl _)
          by_cases hn0 : n = 0
          · rw [hS1 hn0]; exact .refl _ _
          · rw [if_neg (by omega)] at hL
            exact hL.mono (Stale.le_trans (Stale.later_le _) (Stale.meet_right _ _))
    | @ok j1 _ _ h1 h2 h3 =>
      rw [← hj] at h1
      simp only [after]
      split
      · rename_i hmx
        have h1' : mx - n = 1 := by omega
        simp only [IterOK]
        rw [h1'] at hpost
        have hle : (if mn ≤ 1 then ls.later else (ls.meet lf).later).le ls = true := by
          split
          · exact Stale.later_le _
          · exact Stale.le_trans (Stale.later_le _) (Stale.meet_left _ _)
        exact hpost _ _ _ (.ok (.repLast h1) h2
          (Leak.trans (h3.move (by split <;> exact Stale.later_ne _)) hL hle hle))
      · rename_i hmx
        simp only [newChild, IterOK]
        refine .repAt hI' (by omega) (by omega) rfl rfl h2.symm
          (Leak.trans (h3.move (by split <;> exact Stale.later_ne _)) hL (Stale.le_refl _)
            (Stale.le_refl _)) ?_
        intro r i' S' ho
        have e1 : mn - n - 1 = mn - (n + 1) := by omega
        have e2 : mx - n - 1 = mx - (n + 1) := by omega
        cases ho with
        | ok a b c =>
          exact hpost _ _ _ (.ok (.repMore (by omega) h1 (by rw [e1, e2]; exact a)) b c)
        | no a b c =>
          exact hpost _ _ _ (.no (.repMore (by omega) h1 (by rw [e1, e2]; exact a)) b (by simp))

/-- What separators and items of lists leave behind may be anywhere. -/
theorem left_later {f : Nat → Nat} {i x : Nat} {a : Stale} {S2 S1 S : List Nat}
    (h : Leak f i (a.later.meet .start) S2 S1) (h' : Leak f x a.later S1 S) :
    Leak f x a.later S2 S := by
  cases a with
  | none => exact (h.move (by simp [Stale.later, Stale.meet])).trans h' rfl rfl
  | start => exact (h.move (by simp [Stale.later, Stale.meet])).trans h' rfl rfl
  | any => exact ((h.mono (c := .any) rfl).move (by simp)).trans h' rfl rfl

theorem left_all {f : Nat → Nat} {i x : Nat} {a : Stale} {S2 S1 S : List Nat}
    (h : Leak f i (a.later.meet .start) S2 S1) (h' : Leak f x a.later S1 S) :
    Leak f x a S2 S := (left_later h h').mono (Stale.later_le _)

theorem step_list_sep (hN : useSk = true → ∀ i, N (N i) = N i)
    {sk c ls lf OP SEP op sep i m j jm x S1 S S0 post}
    (hI : Impl K useSk els elf sk false c ls lf (.list OP SEP) (.list op sep))
    (hS0 : S0 = List.replicate (marks SEP) m ++ jm :: S1) (hm : nn N sk m = nn N sk i)
    (hL : Leak (nn N sk) x ls.later S1 S) (hi : nn N sk i = nn N sk j) (hjm : nn N sk jm = nn N sk j)
    (hpost : ∀ r i' S', Outcome env t N sk c ls lf x (.rep 0 0 (.seq [sep, op])) j S r i' S' →
        post r i' S') :
    StepOK env t K N useSk els elf (.list OP SEP) (.list true (fresh SEP)) i S0 post := by
  have hI' := hI
  cases hI with
  | leaf h => cases h
  | list hop hsep =>
    refine ⟨SEP, fresh SEP, rfl, _, .fresh hsep rfl hS0 hm (by simp) (fun _ _ _ h => h), ?_⟩
    have hid := nn_idem (sk := sk) hN (hop.hasSk rfl)
    intro r cs' i1 S1' ho
    cases ho with
    | no h1 h2 h3 =>
      rw [hi] at h1
      obtain ⟨y, S2, rfl, hp, hy⟩ := h2.pop (hjm.trans hi.symm)
      simp only [after, back, IterOK]
      refine hpost _ _ _ (.ok (.repStop (.seqNo ?_))
        ((hy (Stale.meet_start_ne _)).trans hi)
        (left_all hp hL))
      rw [hid]; exact h1
    | @ok j1 _ _ h1 h2 h3 =>
      rw [hi] at h1
      obtain ⟨y, S2, rfl, hp, hy⟩ := h3.pop (hjm.trans hi.symm)
      simp only [after, newChild, IterOK]
      exact .listOp hI' rfl rfl (left_later hp hL) h1 h2
        ((hy (Stale.meet_start_ne _)).trans hi) hpost

theorem step_list_op (hN : useSk = true → ∀ i, N (N i) = N i)
    {sk c ls lf OP SEP op sep i m jm x S1 S S0 post}
    (hI : Impl K useSk els elf sk false c ls lf (.list OP SEP) (.list op sep))
    (hS0 : S0 = List.replicate (marks OP) m ++ jm :: S1) (hm : nn N sk m = nn N sk i)
    (hL : Leak (nn N sk) x ls.later S1 S)
    (hno : PegN env t (nn N sk) op (nn N sk i) none → post .SUCCESS jm S1)
    (hok : ∀ k, PegN env t (nn N sk) op (nn N sk i) (some k) → ∀ r i' S',
      Outcome env t N sk c ls lf x (.rep 0 0 (.seq [sep, op])) k S r i' S' → post r i' S') :
    StepOK env t K N useSk els elf (.list OP SEP) (.list false (fresh OP)) i S0 post := by
  have hI' := hI
  cases hI with
  | leaf h => cases h
  | list hop hsep =>
    refine ⟨OP, fresh OP, rfl, _, .fresh hop rfl hS0 hm (by simp) (fun _ _ _ h => h), ?_⟩
    intro r cs' i1 S1' ho
    cases ho with
    | no h1 h2 h3 =>
      have e := h2.eq
      subst e
      simp only [after, back, IterOK]
      exact hno h1
    | @ok j1 _ _ h1 h2 h3 =>
      have key : ∃ x' S3, S1' = x' :: S3 ∧ Leak (nn N sk) x ls.later S3 S := by
        obtain ⟨L, rfl, hLs, _⟩ := h3
        obtain ⟨L1, rfl, hL1, _⟩ := hL
        cases L with
        | nil => exact ⟨jm, L1 ++ S, rfl, L1, rfl, hL1, fun h => absurd h (Stale.later_ne _)⟩
        | cons y L =>
          refine ⟨y, L ++ jm :: (L1 ++ S), rfl, L ++ jm :: L1, by simp, ?_,
            fun h => absurd h (Stale.later_ne _)⟩
          intro h; have := hLs h; cases this
      obtain ⟨x', S3, rfl, hL3⟩ := key
      simp only [after, newChild, IterOK]
      exact .listSep hI' rfl rfl hL3 h2 h2 (hok j1 h1)

theorem PegN.rep00 {N : Nat → Nat} {q p i o} (h : PegN env t N q i o) :
    q = .rep 0 0 p → o ≠ none := by
  induction h with
  | repStop => simp
  | repLast => simp
  | repFew h => rintro ⟨⟩; omega
  | repMore _ _ _ _ ih => rintro ⟨⟩; exact ih rfl
  | _ => intro h; cases h

theorem Outcome.weaken {sk c c' ls lf x p i S r i' S'}
    (h : Outcome env t N sk c ls lf x p i S r i' S')
    (hc : c' = true → c = true) : Outcome env t N sk c' ls lf x p i S r i' S' := by
  cases h with
  | ok a b c => exact .ok a b c
  | no a b d => exact .no a b fun h => d (hc h)

theorem rep_succ (k m : Nat) (S : List Nat) :
    List.replicate (k + 1) m ++ S = List.replicate k m ++ m :: S := by
  rw [List.replicate_succ', List.append_assoc]; rfl

/-- Transparent wrappers. -/
theorem step_pass (hN : useSk = true → ∀ i, N (N i) = N i)
    {sk full c ls lf P P' p p' st i m S S0 post} (hI : Impl K useSk els elf sk full c ls lf P p)
    (hc : childOf P' st = some (P, fresh P))
    (ha : ∀ r cs' i1 S1, after P' st r cs' i1 S1 = some (.ret r i1 S1))
    (hS0 : S0 = List.replicate (marks P) m ++ S) (hm : nn N sk m = nn N sk i)
    (hi : nn N sk i = i)
    (hp : ∀ o, PegN env t (nn N sk) p (nn N sk i) o → PegN env t (nn N sk) p' i o)
    (hpost : ∀ r i' S', Outcome env t N sk c ls lf i p' i S r i' S' → post r i' S') :
    StepOK env t K N useSk els elf P' st i S0 post := by
  refine ⟨P, fresh P, hc, _, .fresh hI rfl hS0 hm (fun _ => hi) (fun _ _ _ h => h), ?_⟩
  intro r cs' i1 S1 ho
  rw [ha]
  cases ho with
  | ok a b c => exact hpost _ _ _ (.ok (hp _ a) b c)
  | no a b d => exact hpost _ _ _ (.no (hp _ a) b fun h => by rw [d h, hi, hi])

theorem step_fresh (hN : useSk = true → ∀ i, N (N i) = N i) {sk c ls lf P p i m S S0 post}
    (hI : Impl K useSk els elf sk false c ls lf P p) (hleaf : P.isLeaf = false)
    (hrec : ∀ id s, P ≠ .recur id s)
    (hS0 : S0 = List.replicate (marks P) m ++ S) (hm : nn N sk m = nn N sk i)
    (hi : nn N sk i = i)
    (hpost : ∀ r i' S', Outcome env t N sk c ls lf i p i S r i' S' → post r i' S') :
    StepOK env t K N useSk els elf P (fresh P) i S0 post := by
  have hI' := hI
  cases hI with
  | leaf h => cases h <;> cases hleaf
  | @clean _ c c' _ _ P p hch =>
    refine ⟨P, fresh P, rfl, _, .fresh hch rfl (by rw [hS0]; exact rep_succ _ _ _) hm
      (fun _ => hi) (fun _ _ _ h => h), ?_⟩
    intro r cs' i1 S1 ho
    rw [hi] at ho
    cases ho with
    | ok a b c =>
      obtain ⟨y, S2, rfl, hp, _⟩ := c.pop hm
      exact hpost _ _ _ (.ok a b hp)
    | no a b d =>
      obtain ⟨y, S2, rfl, hp, hy⟩ := b.pop hm
      exact hpost _ _ _ (.no a (hp.mono (Stale.meet_left _ _))
        fun _ => hy (Stale.meet_start_ne _))
  | atomic hch =>
    exact step_pass hN hch rfl (fun r _ _ _ => by cases r <;> rfl) hS0 hm hi
      (fun o h => by rwa [hi] at h) hpost
  | @seq _ _ _ slots Ps ps hne hlen hsl hch =>
    cases Ps with
    | nil => exact absurd rfl hne
    | cons P Ps => exact step_seq hI' (by rfl) hS0 hm rfl (fun _ => rfl) (.refl _ _) (by simpa using hpost)
  | @alt _ _ _ _ Ps ps hne hlen hch =>
    cases Ps with
    | nil => exact absurd rfl hne
    | cons P Ps =>
      exact step_alt hN hI' (by rfl) hS0 hm rfl (.refl _ _)
        fun r i' S' h => hpost r i' S' (Outcome.weaken (by simpa using h) fun _ => rfl)
  | rep hch =>
    exact step_rep hN hI' (by omega) (fun _ => rfl) hS0 hm rfl (.refl _ _) (by simpa using hpost)
  | @opt _ _ c' _ _ P p hst hch =>
    refine ⟨P, fresh P, rfl, _, .fresh hch rfl (by rw [hS0]; exact rep_succ _ _ _) hm
      (by simp) (fun _ _ _ h => h), ?_⟩
    intro r cs' i1 S1 ho
    cases ho with
    | ok a b c => exact hpost _ _ _ (.ok (.opt a) b (c.keep hm hst))
    | no a b d =>
      obtain ⟨y, S2, rfl, hp, hy⟩ := b.pop hm
      exact hpost _ _ _ (.ok (.optNo a) (hy (by simp)) (hp.mono hst))
  | @not _ _ c' _ _ P p hch =>
    refine ⟨P, fresh P, rfl, _, .fresh hch rfl (by rw [hS0]; exact rep_succ _ _ _) hm
      (by simp) (fun _ _ _ h => h), ?_⟩
    intro r cs' i1 S1 ho
    cases ho with
    | ok a b c =>
      obtain ⟨y, S2, rfl, hp, hy⟩ := c.pop hm
      exact hpost _ _ _ (.no (.notNo a) (hp.mono (Stale.meet_left _ _))
        fun _ => hy (Stale.meet_start_ne _))
    | no a b d =>
      obtain ⟨y, S2, rfl, hp, hy⟩ := b.pop hm
      exact hpost _ _ _ (.ok (.not a) (hy (Stale.meet_start_ne _))
        (hp.mono (Stale.meet_left _ _)))
  | discard hch =>
    exact step_pass hN hch rfl (fun r _ _ _ => by cases r <;> rfl) hS0 hm hi
      (fun o h => .discard h) hpost
  | bindDst hch =>
    exact step_pass hN hch rfl (fun r _ _ _ => by cases r <;> rfl) hS0 hm hi
      (fun o h => .bindDst h) hpost
  | construct hch =>
    exact step_pass hN hch rfl (fun r _ _ _ => by cases r <;> rfl) hS0 hm hi
      (fun o h => .construct h) hpost
  | action hch =>
    exact step_pass hN hch rfl (fun r _ _ _ => by cases r <;> rfl) hS0 hm hi
      (fun o h => .action h) hpost
  | @lexeme _ _ _ _ P p hch hmk =>
    have hS : ∃ m', S0 = List.replicate (marks P) m' ++ S ∧ m' = i := by
      cases sk with
      | true =>
        have h0 := hmk rfl
        refine ⟨i, ?_, rfl⟩
        rw [hS0, marks, h0]; rfl
      | false => exact ⟨m, hS0, hm⟩
    obtain ⟨m', hS', rfl⟩ := hS
    refine ⟨P, fresh P, rfl, _, .fresh (sk := false) (full := false) hch rfl hS' rfl
      (fun _ => rfl) (fun _ _ _ h => h), ?_⟩
    intro r cs' i1 S1 ho
    cases ho with
    | ok a b c =>
      exact hpost _ _ _ (.ok (.lexeme a) (by rw [show i1 = _ from b]; rfl)
        (c.shift fun k hk => by rw [show k = _ from hk]; rfl))
    | no a b d =>
      exact hpost _ _ _ (.no (.lexeme a)
        (b.shift fun k hk => by rw [show k = _ from hk]; rfl) fun h => by rw [show i1 = _ from d h]; rfl)
  | @lexemeClean _ _ c' _ _ P p hch hmk =>
    refine ⟨.clean P, .wrap (fresh P), rfl,
      fun r i' S' => (r = .SUCCESS ∧ PegN env t id p i (some i') ∧ Leak (nn N sk) i ls S' S) ∨
        (r = .FAILURE ∧ PegN env t id p i none ∧ nn N sk i' = nn N sk i ∧
          Leak (nn N sk) i lf S' S),
      .cleanAt (sk := sk) hch hmk (m := m) (S := S) ?_ hm ?_ ?_, ?_⟩
    · rw [hS0, marks, marks, hmk]; rfl
    · exact fun i' S' h1 h2 => .inl ⟨rfl, h1, h2⟩
    · exact fun i' S' h h1 h2 => .inr ⟨rfl, h, h1, h2⟩
    · rintro r cs' i1 S1 (⟨rfl, h1, h2⟩ | ⟨rfl, h1, h2, h3⟩)
      · exact hpost _ _ _ (.ok (.lexeme h1) rfl h2)
      · exact hpost _ _ _ (.no (.lexeme h1) h3 fun _ => h2)
  | @except _ _ _ OP NEG op neg hop hneg =>
    refine ⟨NEG, fresh NEG, rfl, _, .fresh hneg rfl hS0 hm (by simp) (fun _ _ _ h => h), ?_⟩
    intro r cs' i1 S1 ho
    cases ho with
    | ok a b c => exact hpost _ _ _ (.no (.exceptNo a) c (by simp))
    | no a b d =>
      have d := d rfl
      rw [hi, hi] at d
      rw [hi] at a
      simp only [after, newChild, IterOK]
      have hsh : nn N sk i1 = nn N sk i := by rw [d, hi]
      refine .exceptOp hI' rfl rfl (b.shift fun k hk => hk.trans hsh.symm) ?_
      intro r i' S' ho
      rw [d] at ho
      cases ho with
      | ok e f g =>
        exact hpost _ _ _ (.ok (.except (by rw [hi]; exact a) (by rw [hi]; exact e)) f
          (g.shift fun k hk => hk.trans hsh))
      | no e f g =>
        exact hpost _ _ _ (.no (.except (by rw [hi]; exact a) (by rw [hi]; exact e))
          (f.shift fun k hk => hk.trans hsh) (by simp))
  | @list _ _ _ _ _ _ OP SEP op sep hop hsep =>
    refine step_list_op (x := i) hN hI' (by rw [hS0]; exact rep_succ _ _ _) hm (.refl _ _)
      (fun h => hpost _ _ _ (.ok (.listNil h) hm (.refl _ _))) ?_
    intro k hk r i' S' ho
    cases ho with
    | ok a b c => exact hpost _ _ _ (.ok (.list hk a) b c)
    | no a b c => exact absurd rfl (a.rep00 rfl)
  | recur => exact absurd rfl (hrec _ _)

/-- One iteration from a state of the class. -/
theorem cfg_step (hK : useSk = true → ∃ s, SkipOK env t K N useSk els elf s) {P st i S0 post}
    (h : Cfg env t K N useSk els elf P st i S0 post) (hleaf : P.isLeaf = false)
    (hrec : ∀ id s, P ≠ .recur id s) : StepOK env t K N useSk els elf P st i S0 post := by
  have hN : useSk = true → ∀ i, N (N i) = N i := fun h => (hK h).choose_spec.idem
  cases h with
  | @fresh sk full c ls lf P p st i m S S0 post hI hst hS0 hm hi hpost =>
    subst hst
    cases full with
    | false =>
      have hi := hi rfl
      exact step_fresh hN hI hleaf hrec hS0 hm hi (by rwa [hi] at hpost)
    | true =>
      cases hI with
      | plain hI => exact step_fresh hN hI hleaf hrec hS0 hm rfl hpost
      | @skip _ _ _ P _ hu hI =>
        obtain ⟨s, hs⟩ := hK hu
        have hS : S0 = List.replicate (marks P) m ++ S := by
          rw [hS0, marks, hs.marks, Nat.zero_add]
        refine ⟨K, Abu.fresh K, rfl, _, .fresh (sk := false) (m := i) (S := S0) hs.impl rfl
          (by rw [hs.marks]; rfl) rfl (fun _ => rfl) (fun _ _ _ h => h), ?_⟩
        intro r cs' i1 S1 ho
        cases ho with
        | @ok j _ _ a b c =>
          have := c.eq; subst this
          have hij : i1 = j := b
          subst hij
          have e : N i1 = N i := hs.step a
          simp only [after, newChild, IterOK, Abu.fresh]
          refine .fresh (.skip hu hI) rfl (m := m) (S := S) ?_ (hm.trans e.symm) (by simp) ?_
          · rw [hs.marks, hS, marks, hs.marks, Nat.zero_add]; rfl
          · have e' : nn N true i1 = nn N true i := e
            intro r i' S' ho
            rw [e'] at ho
            refine hpost r i' S' ?_
            cases ho with
            | ok a b c => exact .ok a b (c.shift fun k hk => hk.trans e')
            | no a b c => exact .no a (b.shift fun k hk => hk.trans e') c
        | no a b d =>
          have := b.eq; subst this
          have hij : i1 = i := d rfl
          subst hij
          have e : nn N true i1 = i1 := hs.stop a
          simp only [after, IterOK, Abu.fresh]
          exact .skipped hI hS hm e (by rwa [e] at hpost)
  | skipped hI hS0 hm hi hpost =>
    refine ⟨_, _, rfl, _, .fresh hI rfl hS0 hm (fun _ => hi) (by rw [hi]; exact hpost), ?_⟩
    intro r cs' i1 S1 ho
    cases r <;> exact ho
  | seqAt hI hP hS0 hm hj hx hL hpost => exact step_seq hI hP hS0 hm hj hx hL hpost
  | altAt hI hP hS0 hm hj hL hpost => exact step_alt hN hI hP hS0 hm hj hL hpost
  | repAt hI hn hS1 hS0 hm hj hL hpost => exact step_rep hN hI hn hS1 hS0 hm hj hL hpost
  | exceptOp hI hS0 hm hL hpost =>
    cases hI with
    | leaf h => cases h
    | except hop hneg =>
      refine ⟨_, _, rfl, _, .fresh hop rfl hS0 hm (by simp) (fun _ _ _ h => h), ?_⟩
      intro r cs' i1 S1 ho
      cases ho with
      | ok a b c => exact hpost _ _ _ (.ok a b (c.trans hL (Stale.le_refl _) (Stale.meet_left _ _)))
      | no a b c => exact hpost _ _ _ (.no a (b.trans hL (Stale.le_refl _)
        (Stale.meet_right _ _)) (by simp))
  | @listOp sk c ls lf OP SEP op sep i m j k jm x S1 S S0 post hI hS0 hm hL hsep hik hjm hpost =>
    refine step_list_op hN hI hS0 hm hL ?_ ?_
    · intro h
      have hid : nn N sk (nn N sk j) = nn N sk j := by
        cases hI with
        | leaf h => cases h
        | list hop _ => exact nn_idem hN (hop.hasSk rfl) j
      refine hpost _ _ _ (.ok (.repStop (.seq (j := k) ?_ (.seqNo ?_))) hjm
        (hL.mono (Stale.later_le _)))
      · rw [hid]; exact hsep
      · rw [← hik]; exact h
    · intro k' h r i' S' ho
      have hid : nn N sk (nn N sk j) = nn N sk j := by
        cases hI with
        | leaf h => cases h
        | list hop _ => exact nn_idem hN (hop.hasSk rfl) j
      have hso : PegN env t (nn N sk) (.seq [sep, op]) (nn N sk j) (some k') :=
        .seq (by rw [hid]; exact hsep) (.seq (by rw [← hik]; exact h) .seqNil)
      cases ho with
      | ok a b c => exact hpost _ _ _ (.ok (.repMore (by simp) hso a) b c)
      | no a b c => exact absurd rfl (a.rep00 rfl)
  | listSep hI hS0 hm hL hi hjm hpost => exact step_list_sep hN hI hS0 hm hL hi hjm hpost
  | @cleanAt sk _ _ _ _ _ _ m _ _ _ hI hmk hS0 hm h1 h2 =>
    refine ⟨_, _, rfl, _, .fresh (sk := false) (m := i) hI rfl (by rw [hmk, hS0]; rfl) rfl
      (fun _ => rfl) (fun _ _ _ h => h), ?_⟩
    intro r cs' i1 S1 ho
    have hsh : ∀ k, nn N false k = nn N false i → nn N sk k = nn N sk i :=
      fun k hk => by rw [show k = _ from hk]; rfl
    cases ho with
    | ok a b c =>
      have b : i1 = _ := b
      subst b
      obtain ⟨y, S2, rfl, hp, _⟩ := (c.shift hsh).pop hm
      exact h1 _ _ a hp
    | no a b d =>
      obtain ⟨y, S2, rfl, hp, hy⟩ := (b.shift hsh).pop hm
      exact h2 _ _ a (hy (Stale.meet_start_ne _)) (hp.mono (Stale.meet_left _ _))

theorem run_unique {n n' : Nat} {P d b st} {w : World Cursor Unit} {x y}
    (h : run env n P d b st w = .ok x) (h' : run env n' P d b st w = .ok y) : x = y := by
  have := Evals.unique (env := env) ⟨by simp, n, h⟩ ⟨by simp, n', h'⟩
  cases this; rfl

theorem childOf_some {p st cp cs} (h : childOf p st = some (cp, cs)) :
    p.isLeaf = false ∧ ∀ id s, p ≠ .recur id s := by
  cases p <;> first | (constructor <;> simp [Prog.isLeaf] <;> done) | (cases h; done)

/-- Programs of the class do what the grammar semantics says, if they return. -/
theorem sound (hK : useSk = true → ∃ s, SkipOK env t K N useSk els elf s)
    (hE : ∀ sk, (sk = true → useSk = true) → ∀ id q, env id = some q →
      Impl K useSk els elf sk false false els elf (elabP (if sk then K else .fail) RecurChildReqs q) q)
    {P st i S0 r i' S'} (h : Big env t P st i S0 r i' S') :
    ∀ {post}, Cfg env t K N useSk els elf P st i S0 post → post r i' S' := by
  induction h with
  | @leaf p st i S n r st' i' S' hl hr =>
    intro post hc
    cases hc with
    | fresh hI hst hS0 hm hi hpost =>
      subst hst
      have fin : ∀ {sk c ls lf p'}, LeafOK c p p' →
          (∀ r i' S', Outcome env t N sk c ls lf i p' i S r i' S' → post r i' S') →
          post r i' S' := by
        intro sk c ls lf p' hl hp
        obtain ⟨n', r', st2, i2, hr', ho⟩ := leaf_ok (env := env) (t := t) (N := N) (sk := sk)
          (ls := ls) (lf := lf) hl i S
        have := run_unique hr hr'
        simp only [Prod.mk.injEq, World.mk.injEq, Cursor.mk.injEq] at this
        obtain ⟨⟨rfl, _⟩, ⟨_, rfl, rfl, _⟩, _⟩ := this
        exact hp _ _ _ ho
      have hmk : Abu.marks p = 0 := by cases p <;> first | rfl | cases hl
      rw [hmk] at hS0
      have hS0 : S = _ := hS0
      subst hS0
      cases hI with
      | plain hI =>
        cases hI with
        | leaf h => exact fin h hpost
        | _ => cases hl
      | leaf h => exact fin h (by have := hi rfl; rwa [this] at hpost)
      | _ => cases hl
    | _ => cases hl
  | @ret _ _ _ _ _ _ _ cs' _ _ _ _ _ hc hb ha ih =>
    intro post hcfg
    obtain ⟨hl, hr⟩ := childOf_some hc
    obtain ⟨cp, cs, hc', cpost, hcc, hnext⟩ := cfg_step hK hcfg hl hr
    rw [hc] at hc'
    cases hc'
    have := hnext _ cs' _ _ (ih hcc)
    rw [ha] at this
    exact this
  | @cont _ _ _ _ _ _ _ cs' _ _ _ _ _ _ _ _ hc hb ha hb2 ih ih2 =>
    intro post hcfg
    obtain ⟨hl, hr⟩ := childOf_some hc
    obtain ⟨cp, cs, hc', cpost, hcc, hnext⟩ := cfg_step hK hcfg hl hr
    rw [hc] at hc'
    cases hc'
    have := hnext _ cs' _ _ (ih hcc)
    rw [ha] at this
    exact ih2 this
  | @recurNone id sk q i S r i' S' hq hb ih =>
    intro post hcfg
    cases hcfg with
    | fresh hI hst hS0 hm hi hpost =>
      have fin : ∀ {sk' c ls lf p'}, Impl K useSk els elf sk' false c ls lf (.recur id sk) p' →
          nn N sk' i = i →
          (∀ r i' S', Outcome env t N sk' c ls lf i p' i S r i' S' → post r i' S') →
          post r i' S' := by
        intro sk' c ls lf p' hI hi hp
        cases hI with
        | leaf h => cases h
        | recur h1 h2 h3 =>
          refine hp _ _ _ ?_
          have := ih (.fresh (hE sk' h1 id q hq) rfl rfl rfl (fun _ => hi) (fun _ _ _ h => h))
          rw [hi] at this
          cases this with
          | ok a b c => exact .ok (.recur hq (by rw [hi]; exact a)) b (c.mono h2)
          | no a b c => exact .no (.recur hq (by rw [hi]; exact a)) (b.mono h3) (by simp)
      have hS0 : S = _ := hS0
      subst hS0
      cases hI with
      | plain hI => exact fin hI rfl hpost
      | leaf h => cases h
      | recur h1 h2 h3 =>
        have := hi rfl
        exact fin (.recur h1 h2 h3) this (by rwa [this] at hpost)
  | recurSome hq hb ih =>
    intro post hcfg
    cases hcfg with | fresh hI hst => cases hst

end
end Abu
