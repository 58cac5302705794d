import Verif.Proofs.TimeReal
import Verif.Proofs.Buffers
/-
Parsers that never roll back go through a number of iterations linear in what they consume.
-/
namespace Abu

section
variable {env : Env} {t : List Ch}

/-- A parser without children that moves on with every iteration but the last. -/
theorem steps_leaf_pos {P : Prog} (hl : P.isLeaf = true)
    (h : ∀ call st (w : World Cursor Unit) s w', exec call (body env P .nil .nil st) w = .ok (s, w') →
      w.ds.pos ≤ w'.ds.pos ∧ ∀ st', s = .cont st' → w.ds.pos < w'.ds.pos) :
    ∀ n st (w : World Cursor Unit) a w', run env n P .nil .nil st w = .ok (a, w') → w.ds.pos ≤ w'.ds.pos ∧
      steps env n P .nil .nil st w ≤ w'.ds.pos - w.ds.pos + 1 := by
  intro n
  induction n with
  | zero => intro st w a w' h; cases h
  | succ n ih =>
    intro st w a w' hr
    rw [run_succ_eq] at hr
    rw [steps_succ, callSteps_leaf hl]
    cases hx : exec (run env n) (body env P .nil .nil st) w with
    | error e => rw [hx] at hr; cases hr
    | ok y =>
      obtain ⟨s, w1⟩ := y
      have h1 := h _ _ _ _ _ hx
      rw [hx] at hr
      cases s with
      | ret r st' =>
        simp only [Except.ok.injEq, Prod.mk.injEq] at hr
        obtain ⟨_, rfl⟩ := hr
        exact ⟨h1.1, by simp only; omega⟩
      | cont st' =>
        have h2 := h1.2 _ rfl
        have h3 := ih _ _ _ _ hr
        exact ⟨by omega, by simp only; omega⟩

/-- Of a command: it moves on if it goes on, and never back. -/
inductive Moves : Bool → Cmd Step → Prop
  | ret {b r st} : Moves b (retS r st)
  | cont {st} : Moves true (contS st)
  | fault {b e} : Moves b (.fault e)
  | isEmpty {b k} : (∀ x, Moves b (k x)) → Moves b (.isEmpty k)
  | isFinal {b k} : (∀ x, Moves b (k x)) → Moves b (.isFinal k)
  | next {b k} : (∀ x, Moves b (k x)) → Moves b (.next k)
  | advance {b k} : Moves true k → Moves b (.advance k)
  | mem {b o k} : Moves b k → Moves b (.mem o k)

theorem Moves.run {call : Prog → Ref → Ref → PState → World Cursor Unit →
    Out Cursor Unit (Res × PState)} {b x} (h : Moves b x) : ∀ {w : World Cursor Unit} {s w'},
    exec call x w = .ok (s, w') → w.ds.pos ≤ w'.ds.pos ∧
      ∀ st', s = .cont st' → b = true ∨ w.ds.pos < w'.ds.pos := by
  induction h with
  | ret => intro w s w' h; cases h; exact ⟨Nat.le_refl _, fun _ h => by cases h⟩
  | cont => intro w s w' h; cases h; exact ⟨Nat.le_refl _, fun _ h => .inl rfl⟩
  | fault => intro w s w' h; cases h
  | isEmpty _ ih => intro w s w' h; exact ih _ h
  | isFinal _ ih => intro w s w' h; exact ih _ h
  | next _ ih =>
    intro w s w' h
    simp only [exec] at h
    split at h
    · cases h
    · exact ih _ h
  | advance _ ih =>
    intro w s w' h
    simp only [exec] at h
    split at h
    · cases h
    · rename_i ds hds
      have : (if w.ds.pos < w.ds.text.length then some { w.ds with pos := w.ds.pos + 1 }
        else none) = some ds := hds
      split at this
      · cases this
        have := (ih h).1
        simp only at this
        exact ⟨by omega, fun _ _ => .inr (by omega)⟩
      · cases this
  | mem _ ih => intro w s w' h; exact ih h

theorem Moves.guarded {b st A B} (hA : Moves b A) (hB : ∀ c, Moves b (B c)) :
    Moves b (Abu.guarded st A B) := by
  unfold Abu.guarded
  refine .isEmpty fun x => ?_
  split
  · refine .isFinal fun y => ?_
    split
    · exact hA
    · exact .ret
  · exact .next hB

theorem Moves.negIf {b neg dst k} (h : Moves b k) : Moves b (Abu.negIf neg dst k) := by
  unfold Abu.negIf
  split
  · exact .mem h
  · exact h

theorem moves_leaf {P : Prog} (hl : P.isLeaf = true) (hm : P.markless = true) (dst bnd st) :
    Moves false (body env P dst bnd st) := by
  fun_cases body env P dst bnd st
  all_goals first | (cases hl; done) | (cases hm; done) | exact .fault | exact .ret | skip
  case case1 =>
    refine .guarded .ret fun c => ?_
    split
    · exact .mem (.advance .ret)
    · exact .ret
  case case2 =>
    refine .guarded .ret fun c => ?_
    split
    · exact .ret
    · exact .mem .ret
  case case4 =>
    refine .guarded .ret fun c => ?_
    split
    · exact .advance .cont
    · exact .ret
  case case6 =>
    refine .guarded .ret fun c => ?_
    split
    · refine .mem (.advance ?_)
      split
      · exact .ret
      · exact .cont
    · exact .ret
  case case7 =>
    refine .guarded (.negIf .ret) fun c => ?_
    split
    · exact .advance .cont
    · split
      · exact .advance .cont
      · split
        · refine .mem (.advance ?_)
          split
          · exact .negIf .ret
          · exact .cont
        · exact .negIf .ret
  case case8 => exact .guarded .ret fun c => .ret

end

/-- Parsers without `Recur` that never roll back, and whose loops consume. -/
inductive Flows (c : Nat → Bool) : Prog → Prop
  | leaf {P} : P.isLeaf = true → P.markless = true → Flows c P
  | seq {slots ps} : (∀ p ∈ ps, Flows c p) → Flows c (.seq slots ps)
  | alt {ps} : (∀ p ∈ ps, Flows c p) → Flows c (.alt ps)
  | rep {mn mx p} : mx ≠ 0 ∨ p.eats c = true → Flows c p → Flows c (.rep mn mx p)
  | discard {p} : Flows c p → Flows c (.discard p)
  | lexeme {p} : Flows c p → Flows c (.lexeme p)
  | bindDst {p} : Flows c p → Flows c (.bindDst p)
  | construct {tys p} : Flows c p → Flows c (.construct tys p)
  | action {a p} : Flows c p → Flows c (.action a p)
  | except {op neg} : Flows c op → Flows c neg → Flows c (.except op neg)
  | withSkipper {p} : Flows c p → Flows c (.withSkipper p)
  | atomic {p} : Flows c p → Flows c (.atomic p)
  | skip {s p} : s.eats c = true → Flows c s → Flows c p → Flows c (.skip s p)

theorem Flows.marks {c P} (h : Flows c P) : Abu.marks P = 0 := by
  induction h with
  | leaf hl hm => rename_i P; cases P <;> first | (cases hl; done) | (cases hm; done) | rfl
  | seq _ ih =>
    rename_i ps _
    cases ps with
    | nil => rfl
    | cons p ps => exact ih p (by simp)
  | alt _ ih =>
    rename_i ps _
    cases ps with
    | nil => rfl
    | cons p ps => exact ih p (by simp)
  | except _ _ _ ih => exact ih
  | skip _ _ _ ih1 ih2 => simp only [Abu.marks, ih1, ih2]
  | rep _ _ ih | discard _ ih | lexeme _ ih | bindDst _ ih | construct _ ih | action _ ih
  | withSkipper _ ih | atomic _ ih => exact ih

/-- From `st`, the parser returns after at most `K` iterations for each character it consumes, and
`B` more. -/
def FlowsBy (t : List Ch) (P : Prog) (st : PState) (i : Nat) (S : List Nat) (K B : Nat) : Prop :=
  ∃ r i' k, BigIn (fun _ => none) t P st i S r i' S k ∧ i ≤ i' ∧ k ≤ K * (i' - i) + B

theorem FlowsBy.mono {t P st i S K B K' B'} (h : FlowsBy t P st i S K B) (hK : K ≤ K') (hB : B ≤ B') :
    FlowsBy t P st i S K' B' := by
  obtain ⟨r, i', k, h1, h2, h3⟩ := h
  exact ⟨r, i', k, h1, h2, Nat.le_trans h3 (Nat.add_le_add (Nat.mul_le_mul_right _ hK) hB)⟩

/-- The same wherever it is constructed. -/
def Linear (P : Prog) (K : Nat) : Prop :=
  ∀ t i S, i ≤ t.length → FlowsBy t P (fresh P) i S K K

theorem Linear.mono {P K K'} (h : Linear P K) (hK : K ≤ K') : Linear P K' :=
  fun t i S hi => (h t i S hi).mono hK hK

theorem lin_step {K i j k : Nat} (h1 : i ≤ j) (h2 : j ≤ k) : K * (j - i) + K * (k - j) = K * (k - i) := by
  rw [← Nat.mul_add]; congr 1; omega

/-- One iteration, and what follows it. -/
theorem flowsBy_child {c : Nat → Bool} {t P st i S cp K K' B} (hch : childOf P st = some (cp, fresh cp))
    (hcp : Comp cp) (hm : marks cp = 0) (hi : i ≤ t.length) (hK : K ≤ K') (hl : Linear cp K)
    (h : ∀ r i1, Ended t c i cp r i1 [] →
      (∃ r', after P st r .unit i1 S = some (.ret r' i1 S) ∧ K + 1 ≤ B) ∨
      (∃ st2 B', after P st r .unit i1 S = some (.cont st2 i1 S) ∧ FlowsBy t P st2 i1 S K' B' ∧
        K * (i1 - i) + K + 1 + B' ≤ K' * (i1 - i) + B)) :
    FlowsBy t P st i S K' B := by
  obtain ⟨r, i1, k, hb, hle, hk⟩ := hl t i S hi
  obtain ⟨L, hL, he⟩ := low_ended (c := c) noEnv_comp (noEnv_eats c) hb.big (lo := i) (own := []) (S := S)
    hcp rfl (.inr ⟨rfl, ⟨Nat.le_refl _, hi, by rw [hm]; rfl, .nil⟩⟩)
  obtain rfl : L = [] := by
    have := congrArg List.length hL
    rw [List.length_append] at this
    exact List.eq_nil_of_length_eq_zero (by omega)
  have hlow := he.low
  rcases h r i1 he with ⟨r', ha, hB⟩ | ⟨st2, B', ha, ⟨r', i', l, hb', hle', hl'⟩, hB⟩
  · refine ⟨r', i1, _, .ret hch hb ha, hle, ?_⟩
    have := Nat.mul_le_mul_right (i1 - i) hK
    omega
  · refine ⟨r', i', _, .cont hch hb ha hb', by omega, ?_⟩
    have := lin_step (K := K') hle hle'
    omega

theorem flowsBy_once {c : Nat → Bool} {P p K} (hch : childOf P (fresh P) = some (p, fresh p))
    (hcp : Comp p) (hm : marks p = 0) (hl : Linear p K)
    (h : ∀ r i S, ∃ r', after P (fresh P) r .unit i S = some (.ret r' i S)) : Linear P (K + 1) := by
  intro t i S hi
  refine flowsBy_child (c := c) hch hcp hm hi (Nat.le_succ _) hl fun r i1 he => ?_
  obtain ⟨r', h⟩ := h r i1 S
  exact .inl ⟨r', h, Nat.le_refl _⟩

theorem newChild_flows {c : Nat → Bool} {f p i S} (h : Flows c p) :
    newChild f p i S = some (.cont (f (fresh p)) i S) := by
  rw [newChild, h.marks]; rfl

/-- A bound for all of several. -/
theorem linear_all {ps : List Prog} (h : ∀ p ∈ ps, ∃ K, Linear p K) : ∃ K, ∀ p ∈ ps, Linear p K := by
  induction ps with
  | nil => exact ⟨0, fun p hp => by cases hp⟩
  | cons p ps ih =>
    obtain ⟨K, h1⟩ := h p (by simp)
    obtain ⟨K', h2⟩ := ih fun q hq => h q (by simp [hq])
    refine ⟨max K K', fun q hq => ?_⟩
    rcases List.mem_cons.1 hq with rfl | hq
    · exact h1.mono (Nat.le_max_left _ _)
    · exact (h2 q hq).mono (Nat.le_max_right _ _)

theorem linear_seq {c : Nat → Bool} {slots} {ps : List Prog} {K} (hP : Comp (.seq slots ps))
    (hf : ∀ p ∈ ps, Flows c p) (h : ∀ p ∈ ps, Linear p K) :
    Linear (.seq slots ps) (K + ps.length * (K + 1)) := by
  have key : ∀ d k p t i S, ps.length - k = d → ps[k]? = some p → i ≤ t.length →
      FlowsBy t (.seq slots ps) (.seq k (fresh p)) i S K (d * (K + 1)) := by
    intro d
    induction d with
    | zero =>
      intro k p t i S hd hp
      have := (List.getElem?_eq_some_iff.1 hp).1
      omega
    | succ d ih =>
      intro k p t i S hd hp hi
      have hmem := List.mem_of_getElem? hp
      have hch : childOf (.seq slots ps) (.seq k (fresh p)) = some (p, fresh p) := by
        simp [childOf, hp]
      have hmul : (d + 1) * (K + 1) = d * (K + 1) + (K + 1) := Nat.succ_mul _ _
      refine flowsBy_child (c := c) hch (childOf_comp hch hP) (hf p hmem).marks hi
        (Nat.le_refl _) (h p hmem) fun r i1 he => ?_
      have stop : K + 1 ≤ (d + 1) * (K + 1) := by omega
      cases r with
      | SUCCESS =>
        simp only [after]
        split
        · rename_i p' s' hp' hs'
          refine .inr ⟨_, _, newChild_flows (hf p' (List.mem_of_getElem? hp')),
            ih (k + 1) p' t i1 S (by omega) hp' he.high, by omega⟩
        · exact .inl ⟨_, rfl, stop⟩
      | FAILURE => exact .inl ⟨_, rfl, stop⟩
      | PARTIAL => exact .inl ⟨_, rfl, stop⟩
  intro t i S hi
  cases ps with
  | nil => cases hP with | seq h _ _ => exact absurd rfl h
  | cons p ps => exact (key _ 0 p t i S rfl rfl hi).mono (by omega) (by simp)

theorem linear_alt {c : Nat → Bool} {ps : List Prog} {K} (hP : Comp (.alt ps))
    (hf : ∀ p ∈ ps, Flows c p) (h : ∀ p ∈ ps, Linear p K) :
    Linear (.alt ps) (K + ps.length * (K + 1)) := by
  have key : ∀ d k p t i S, ps.length - k = d → ps[k]? = some p → i ≤ t.length →
      FlowsBy t (.alt ps) (.alt k (fresh p)) i S K (d * (K + 1)) := by
    intro d
    induction d with
    | zero =>
      intro k p t i S hd hp
      have := (List.getElem?_eq_some_iff.1 hp).1
      omega
    | succ d ih =>
      intro k p t i S hd hp hi
      have hmem := List.mem_of_getElem? hp
      have hch : childOf (.alt ps) (.alt k (fresh p)) = some (p, fresh p) := by
        simp [childOf, hp]
      have hmul : (d + 1) * (K + 1) = d * (K + 1) + (K + 1) := Nat.succ_mul _ _
      refine flowsBy_child (c := c) hch (childOf_comp hch hP) (hf p hmem).marks hi
        (Nat.le_refl _) (h p hmem) fun r i1 he => ?_
      have stop : K + 1 ≤ (d + 1) * (K + 1) := by omega
      cases r with
      | FAILURE =>
        simp only [after]
        split
        · rename_i p' hp'
          refine .inr ⟨_, _, newChild_flows (hf p' (List.mem_of_getElem? hp')),
            ih (k + 1) p' t i1 S (by omega) hp' he.high, by omega⟩
        · exact .inl ⟨_, rfl, stop⟩
      | SUCCESS => exact .inl ⟨_, rfl, stop⟩
      | PARTIAL => exact .inl ⟨_, rfl, stop⟩
  intro t i S hi
  cases ps with
  | nil => cases hP with | alt h _ => exact absurd rfl h
  | cons p ps => exact (key _ 0 p t i S rfl rfl hi).mono (by omega) (by simp)

/-- What an iteration that consumes may take, in terms of what it consumes. -/
theorem eat_step {K d : Nat} (h : 0 < d) : K * d + K + 1 ≤ (2 * K + 1) * d := by
  have h1 : K ≤ K * d := Nat.le_mul_of_pos_right _ h
  have h2 : (2 * K + 1) * d = K * d + K * d + d := by rw [Nat.add_mul, Nat.two_mul, Nat.add_mul]; omega
  omega

theorem linear_rep {c : Nat → Bool} {mn mx p K} (hp : Comp p) (hf : Flows c p)
    (he : mx ≠ 0 ∨ p.eats c = true) (h : Linear p K) :
    Linear (.rep mn mx p) (2 * K + 1 + mx * (K + 1)) := by
  intro t i S hi
  by_cases hmx : mx = 0
  · subst hmx
    have heats := he.resolve_left (fun h => h rfl)
    have key : ∀ d n i, t.length - i = d → i ≤ t.length →
        FlowsBy t (.rep mn 0 p) (.rep n (fresh p)) i S (2 * K + 1) (K + 1) := by
      intro d
      induction d using Nat.strongRecOn with
      | ind d ih =>
        intro n i hd hi
        refine flowsBy_child (c := c) rfl hp hf.marks hi (by omega) h fun r i1 hend => ?_
        cases r with
        | SUCCESS =>
          have hate := hend.ate rfl heats
          have hhigh := hend.high
          refine .inr ⟨.rep (n + 1) (fresh p), _, ?_, ih (t.length - i1) (by omega) (n + 1) i1 rfl hhigh, ?_⟩
          · simp only [after]
            rw [if_neg (by omega)]
            exact newChild_flows hf
          · have := eat_step (K := K) (d := i1 - i) (by omega)
            omega
        | FAILURE => exact .inl ⟨_, rfl, Nat.le_refl _⟩
        | PARTIAL => exact .inl ⟨_, rfl, Nat.le_refl _⟩
    exact (key _ 0 i rfl hi).mono (by omega) (by omega)
  · have key : ∀ d n i, mx - n = d → n < mx → i ≤ t.length →
        FlowsBy t (.rep mn mx p) (.rep n (fresh p)) i S K (d * (K + 1)) := by
      intro d
      induction d with
      | zero => intro n i hd hn; omega
      | succ d ih =>
        intro n i hd hn hi
        have hmul : (d + 1) * (K + 1) = d * (K + 1) + (K + 1) := Nat.succ_mul _ _
        refine flowsBy_child (c := c) rfl hp hf.marks hi (Nat.le_refl _) h
          fun r i1 hend => ?_
        cases r with
        | SUCCESS =>
          simp only [after]
          split
          · exact .inl ⟨_, rfl, by omega⟩
          · exact .inr ⟨_, _, newChild_flows hf, ih (n + 1) i1 (by omega) (by omega) hend.high, by omega⟩
        | FAILURE => exact .inl ⟨_, rfl, by omega⟩
        | PARTIAL => exact .inl ⟨_, rfl, by omega⟩
    exact (key _ 0 i rfl (by omega) hi).mono (by omega) (by simp)

theorem linear_except {c : Nat → Bool} {op neg A B} (ho : Comp op) (hn : Comp neg) (fo : Flows c op)
    (fn : Flows c neg) (h1 : Linear op A) (h2 : Linear neg B) :
    Linear (.except op neg) (A + B + 2) := by
  intro t i S hi
  refine (flowsBy_child (c := c) (K' := A + B) (B := A + B + 2) rfl hn fn.marks hi
    (by omega) h2 fun r i1 he => ?_).mono (by omega) (Nat.le_refl _)
  cases r with
  | FAILURE =>
    refine .inr ⟨_, A + 1, newChild_flows fo, flowsBy_child (c := c) rfl ho fo.marks he.high (by omega) h1
      fun r i2 he => .inl ?_, ?_⟩
    · cases r <;> exact ⟨_, rfl, by omega⟩
    · have := Nat.mul_le_mul_right (i1 - i) (show B ≤ A + B by omega)
      omega
  | SUCCESS => exact .inl ⟨_, rfl, by omega⟩
  | PARTIAL => exact .inl ⟨_, rfl, by omega⟩

theorem linear_skip {c : Nat → Bool} {s p A B} (hs : Comp s) (hp : Comp p) (fs : Flows c s)
    (fp : Flows c p) (he : s.eats c = true) (h1 : Linear s A) (h2 : Linear p B) :
    Linear (.skip s p) (2 * A + B + 2) := by
  intro t i S hi
  have key : ∀ d i, t.length - i = d → i ≤ t.length →
      FlowsBy t (.skip s p) (.skip false (fresh s) (fresh p)) i S (2 * A + B + 1) (A + B + 2) := by
    intro d
    induction d using Nat.strongRecOn with
    | ind d ih =>
      intro i hd hi
      have hfail : ∀ {i1 : Nat} {sc : PState}, i1 ≤ t.length →
          FlowsBy t (.skip s p) (.skip true sc (fresh p)) i1 S (2 * A + B + 1) (B + 1) := by
        intro i1 sc hi1
        refine flowsBy_child (c := c) rfl hp fp.marks hi1 (by omega) h2 fun r i2 _ => .inl ?_
        cases r <;> exact ⟨_, rfl, Nat.le_refl _⟩
      refine flowsBy_child (c := c) rfl hs fs.marks hi (by omega) h1 fun r i1 hend => ?_
      have hhigh := hend.high
      cases r with
      | SUCCESS =>
        have hate := hend.ate rfl he
        refine .inr ⟨_, _, newChild_flows (f := fun sc => .skip false sc (fresh p)) fs, ih (t.length - i1) (by omega) i1 rfl hhigh, ?_⟩
        have h3 := eat_step (K := A) (d := i1 - i) (by omega)
        have h4 := Nat.mul_le_mul_right (i1 - i) (show 2 * A + 1 ≤ 2 * A + B + 1 by omega)
        omega
      | FAILURE =>
        refine .inr ⟨_, _, rfl, hfail hhigh, ?_⟩
        have h4 := Nat.mul_le_mul_right (i1 - i) (show A ≤ 2 * A + B + 1 by omega)
        omega
      | PARTIAL => exact .inl ⟨_, rfl, by omega⟩
  exact (key _ i rfl hi).mono (by omega) (by omega)

theorem Flows.linear {c P} (h : Flows c P) (hP : Comp P) : ∃ K, Linear P K := by
  induction h with
  | @leaf P hl hm =>
    refine ⟨1, fun t i S hi => ?_⟩
    obtain ⟨n, r, st', i', hr, he⟩ := leaf_halts (env := fun _ => none) (t := t) hl i S
    have hpos := steps_leaf_pos hl (fun call st w s w' h => by
      have := (moves_leaf (env := fun _ => none) hl hm .nil .nil st).run h
      exact ⟨this.1, fun st' hs => (this.2 st' hs).resolve_left (by simp)⟩) _ _ _ _ _ hr
    refine ⟨r, i', _, .leaf hl hr, (he c hi).low, ?_⟩
    have := hpos.2
    simp only [gw] at this ⊢
    omega
  | @seq slots ps hf ih =>
    have hc : ∀ p ∈ ps, Comp p := by cases hP with | seq _ _ h => exact h
    obtain ⟨K, h⟩ := linear_all fun p hp => ih p hp (hc p hp)
    exact ⟨_, linear_seq hP hf h⟩
  | @alt ps hf ih =>
    have hc : ∀ p ∈ ps, Comp p := by cases hP with | alt _ h => exact h
    obtain ⟨K, h⟩ := linear_all fun p hp => ih p hp (hc p hp)
    exact ⟨_, linear_alt hP hf h⟩
  | rep he hf ih =>
    cases hP with
    | rep hp => obtain ⟨K, h⟩ := ih hp; exact ⟨_, linear_rep hp hf he h⟩
  | discard hf ih =>
    cases hP with
    | discard hp =>
      obtain ⟨K, h⟩ := ih hp
      exact ⟨_, flowsBy_once (c := c) rfl hp hf.marks h fun r i S => by cases r <;> exact ⟨_, rfl⟩⟩
  | lexeme hf ih =>
    cases hP with
    | lexeme hp =>
      obtain ⟨K, h⟩ := ih hp
      exact ⟨_, flowsBy_once (c := c) rfl hp hf.marks h fun r i S => by cases r <;> exact ⟨_, rfl⟩⟩
  | bindDst hf ih =>
    cases hP with
    | bindDst hp =>
      obtain ⟨K, h⟩ := ih hp
      exact ⟨_, flowsBy_once (c := c) rfl hp hf.marks h fun r i S => by cases r <;> exact ⟨_, rfl⟩⟩
  | construct hf ih =>
    cases hP with
    | construct hp =>
      obtain ⟨K, h⟩ := ih hp
      exact ⟨_, flowsBy_once (c := c) rfl hp hf.marks h fun r i S => by cases r <;> exact ⟨_, rfl⟩⟩
  | action hf ih =>
    cases hP with
    | action hp =>
      obtain ⟨K, h⟩ := ih hp
      exact ⟨_, flowsBy_once (c := c) rfl hp hf.marks h fun r i S => by cases r <;> exact ⟨_, rfl⟩⟩
  | withSkipper hf ih =>
    cases hP with
    | withSkipper hp =>
      obtain ⟨K, h⟩ := ih hp
      exact ⟨_, flowsBy_once (c := c) rfl hp hf.marks h fun r i S => by cases r <;> exact ⟨_, rfl⟩⟩
  | atomic hf ih =>
    cases hP with
    | atomic hp =>
      obtain ⟨K, h⟩ := ih hp
      exact ⟨_, flowsBy_once (c := c) rfl hp hf.marks h fun r i S => by cases r <;> exact ⟨_, rfl⟩⟩
  | except fo fn ih1 ih2 =>
    cases hP with
    | except ho hn =>
      obtain ⟨A, h1⟩ := ih1 ho
      obtain ⟨B, h2⟩ := ih2 hn
      exact ⟨_, linear_except ho hn fo fn h1 h2⟩
  | skip he fs fp ih1 ih2 =>
    cases hP with
    | skip hs hp =>
      obtain ⟨A, h1⟩ := ih1 hs
      obtain ⟨B, h2⟩ := ih2 hp
      exact ⟨_, linear_skip hs hp fs fp he h1 h2⟩

/-! ### Patterns that stream -/

/-- The skipper in force. -/
structure SkipsOn (c : Nat → Bool) (K : Prog) : Prop where
  eats : K.eats c = true
  flows : Flows c K

theorem SkipsOn.fail {c} : SkipsOn c .fail := ⟨rfl, .leaf rfl rfl⟩

theorem adapt_flows {c K} {r : Req} {a b : Bool} {raw : Prog} (hK : SkipsOn c K) (hb : b = false)
    (hr : Flows c raw) : Flows c (adapt (r.skipper K) a b raw) := by
  subst hb
  have hS : SkipsOn c (r.skipper K) := by
    unfold Req.skipper; split
    · exact .fail
    · exact hK
  unfold adapt
  have hA : Flows c (if a then .atomic raw else raw) := by
    cases a
    · exact hr
    · exact .atomic hr
  simp only [Bool.false_eq_true, if_false]
  split
  · exact hA
  · exact .skip hS.eats hS.flows hA

mutual
theorem elab_flows {c : Nat → Bool} : ∀ (p : Pat) {r : Req} {K : Prog}, SkipsOn c K → p.refs = [] →
    p.loopsEat c = true → p.streams r.FAILS_CLEANLY = true → Flows c (elabP K r p)
  | .char s, r, K, hK, _, hl, h => adapt_flows hK rfl (.leaf rfl rfl)
  | .charSymbol s, r, K, hK, _, hl, h => adapt_flows hK rfl (.leaf rfl rfl)
  | .strLit s, r, K, hK, _, hl, h => adapt_flows hK (streams_clean h) (.leaf rfl rfl)
  | .symbol s, r, K, hK, _, hl, h => by simp [Pat.streams] at h
  | .int .., r, K, hK, _, hl, h => adapt_flows hK (streams_clean h) (.leaf rfl rfl)
  | .uint .., r, K, hK, _, hl, h => adapt_flows hK (streams_clean h) (.leaf rfl rfl)
  | .eoi, r, K, hK, _, hl, h => adapt_flows hK rfl (.leaf rfl rfl)
  | .pass, r, K, hK, _, hl, h => adapt_flows hK rfl (.leaf rfl rfl)
  | .fail, r, K, hK, _, hl, h => adapt_flows hK rfl (.leaf rfl rfl)
  | .seq ps, r, K, hK, hr, hl, h => by
    rw [elabP]
    refine adapt_flows hK (streams_clean h) (.seq ?_)
    simp only [Pat.streams, Bool.and_eq_true] at h
    exact elabs_flows ps hK hr (band_right hl) h.2
  | .alt ps, r, K, hK, hr, hl, h => by
    rw [elabP]
    refine adapt_flows hK (streams_clean h) (.alt ?_)
    simp only [Pat.streams] at h
    exact elabs_flows ps hK hr (band_right hl) h
  | .rep mn mx p, r, K, hK, hr, hl, h => by
    rw [elabP]
    refine adapt_flows hK (streams_clean h) (.rep ?_ ?_)
    · have := band_left hl
      rw [elabP_eats]
      simpa using this
    · simp only [Pat.streams, Bool.and_eq_true] at h
      exact elab_flows p hK hr (band_right hl) h.2
  | .opt p, r, K, hK, hr, hl, h => by simp [Pat.streams] at h
  | .not p, r, K, hK, hr, hl, h => by simp [Pat.streams] at h
  | .discard p, r, K, hK, hr, hl, h => by
    rw [elabP]
    refine adapt_flows hK (streams_clean h) (.discard ?_)
    have e := streams_lower h
    simp only [Pat.streams] at h
    exact elab_flows p hK hr hl (by rw [e]; exact h)
  | .lexeme p, r, K, hK, hr, hl, h => by
    rw [elabP]
    refine adapt_flows hK (streams_clean h) (.lexeme ?_)
    have e := streams_lower h
    simp only [Pat.streams] at h
    exact elab_flows p .fail hr hl (by rw [e]; exact h)
  | .bindDst p, r, K, hK, hr, hl, h => by
    rw [elabP]
    refine adapt_flows hK (streams_clean h) (.bindDst ?_)
    have e := streams_lower h
    simp only [Pat.streams] at h
    exact elab_flows p hK hr hl (by rw [← e] at h; exact h)
  | .construct tys p, r, K, hK, hr, hl, h => by
    rw [elabP]
    refine adapt_flows hK (streams_clean h) (.construct ?_)
    have e := streams_lower h
    simp only [Pat.streams] at h
    exact elab_flows p hK hr hl (by rw [← e] at h; exact h)
  | .action a p, r, K, hK, hr, hl, h => by
    rw [elabP]
    refine adapt_flows hK (streams_clean h) (.action ?_)
    have e := streams_lower h
    simp only [Pat.streams] at h
    exact elab_flows p hK hr hl (by rw [← e] at h; exact h)
  | .except op neg, r, K, hK, hr, hl, h => by
    rw [elabP]
    rw [Pat.refs, List.append_eq_nil_iff] at hr
    have hl1 : op.loopsEat c = true := band_left hl
    have hl2 : neg.loopsEat c = true := band_right hl
    refine adapt_flows hK (streams_clean h) ?_
    simp only [Pat.streams, Bool.and_eq_true] at h
    exact .except (elab_flows op hK hr.1 hl1 h.1.2) (elab_flows neg hK hr.2 hl2 h.2)
  | .list op sep, r, K, hK, hr, hl, h => by simp [Pat.streams] at h
  | .withSkipper p s, r, K, hK, hr, hl, h => by
    rw [elabP]
    rw [Pat.refs, List.append_eq_nil_iff] at hr
    have hls : s.loopsEat c = true := band_right (band_left hl)
    have hlp : p.loopsEat c = true := band_right hl
    have hse : s.eats c = true := band_left (band_left hl)
    refine adapt_flows hK (streams_clean h) (.withSkipper ?_)
    have e := streams_lower h
    simp only [Pat.streams, Bool.and_eq_true] at h
    exact elab_flows p ⟨by rw [elabP_eats]; exact hse, elab_flows s .fail hr.2 hls h.2⟩ hr.1 hlp
      (by rw [e]; exact h.1)
  | .recur id n, r, K, hK, hr, hl, h => by cases hr
theorem elabs_flows {c : Nat → Bool} : ∀ (ps : List Pat) {r : Req} {K : Prog}, SkipsOn c K →
    Pat.refsAll ps = [] → Pat.allLoopsEat c ps = true → Pat.streamsAll r.FAILS_CLEANLY ps = true →
    ∀ P ∈ elabPs K r ps, Flows c P
  | [], r, K, hK, hr, hl, h => fun P hP => by cases hP
  | p :: ps, r, K, hK, hr, hl, h => by
    rw [Pat.refsAll, List.append_eq_nil_iff] at hr
    simp only [Pat.streamsAll, Bool.and_eq_true] at h
    have h1 := elab_flows p (r := r) hK hr.1 (band_left hl) h.1
    have h2 := elabs_flows ps (r := r) hK hr.2 (band_right hl) h.2
    intro P hP
    rw [elabPs] at hP
    rcases List.mem_cons.1 hP with rfl | hP
    · exact h1
    · exact h2 P hP
end

end Abu
