import Verif.Proofs.Checked
/-
Measures of parser classes for the depth of calls.
-/
namespace Abu

mutual
/-- The size of a parser class; `f` says what a `Recur` object adds. -/
def Prog.weight (f : Nat → Nat) : Prog → Nat
  | .seq _ ps => Prog.weightAll f ps + 1
  | .alt ps => Prog.weightAll f ps + 1
  | .rep _ _ p => p.weight f + 1
  | .opt p => p.weight f + 1
  | .not p => p.weight f + 1
  | .discard p => p.weight f + 1
  | .lexeme p => p.weight f + 1
  | .bindDst p => p.weight f + 1
  | .construct _ p => p.weight f + 1
  | .action _ p => p.weight f + 1
  | .except op neg => op.weight f + neg.weight f + 1
  | .list op sep => op.weight f + sep.weight f + 1
  | .withSkipper p => p.weight f + 1
  | .recur id sk => f id + sk.weight f + 1
  | .atomic p => p.weight f + 1
  | .clean p => p.weight f + 1
  | .skip s p => s.weight f + p.weight f + 1
  | _ => 1
def Prog.weightAll (f : Nat → Nat) : List Prog → Nat
  | [] => 0
  | p :: ps => p.weight f + Prog.weightAll f ps
end

mutual
/-- How much the `Recur` objects add that may be called before anything was consumed. -/
def Prog.lead (f : Nat → Nat) (c : Nat → Bool) : Prog → Nat
  | .seq _ ps => Prog.leadSeq f c ps
  | .alt ps => Prog.leadAll f c ps
  | .rep _ _ p => p.lead f c
  | .opt p => p.lead f c
  | .not p => p.lead f c
  | .discard p => p.lead f c
  | .lexeme p => p.lead f c
  | .bindDst p => p.lead f c
  | .construct _ p => p.lead f c
  | .action _ p => p.lead f c
  | .except op neg => max (op.lead f c) (neg.lead f c)
  | .list op sep => max (op.lead f c) (if op.eats c then 0 else sep.lead f c)
  | .withSkipper p => p.lead f c
  | .recur id sk => f id + sk.lead f c
  | .atomic p => p.lead f c
  | .clean p => p.lead f c
  | .skip s p => max (s.lead f c) (p.lead f c)
  | _ => 0
def Prog.leadSeq (f : Nat → Nat) (c : Nat → Bool) : List Prog → Nat
  | [] => 0
  | p :: ps => max (p.lead f c) (if p.eats c then 0 else Prog.leadSeq f c ps)
def Prog.leadAll (f : Nat → Nat) (c : Nat → Bool) : List Prog → Nat
  | [] => 0
  | p :: ps => max (p.lead f c) (Prog.leadAll f c ps)
end

mutual
/-- All the `Recur` objects have skippers in `K`. -/
def Prog.skipsIn (K : Prog → Prop) : Prog → Prop
  | .seq _ ps => Prog.allSkipIn K ps
  | .alt ps => Prog.allSkipIn K ps
  | .rep _ _ p => p.skipsIn K
  | .opt p => p.skipsIn K
  | .not p => p.skipsIn K
  | .discard p => p.skipsIn K
  | .lexeme p => p.skipsIn K
  | .bindDst p => p.skipsIn K
  | .construct _ p => p.skipsIn K
  | .action _ p => p.skipsIn K
  | .except op neg => op.skipsIn K ∧ neg.skipsIn K
  | .list op sep => op.skipsIn K ∧ sep.skipsIn K
  | .withSkipper p => p.skipsIn K
  | .recur _ sk => K sk ∧ sk.skipsIn K
  | .atomic p => p.skipsIn K
  | .clean p => p.skipsIn K
  | .skip s p => s.skipsIn K ∧ p.skipsIn K
  | _ => True
def Prog.allSkipIn (K : Prog → Prop) : List Prog → Prop
  | [] => True
  | p :: ps => p.skipsIn K ∧ Prog.allSkipIn K ps
end

mutual
/-- The skippers in a pattern. -/
def Pat.skippers : Pat → List Prog
  | .seq ps => Pat.skippersAll ps
  | .alt ps => Pat.skippersAll ps
  | .rep _ _ p => p.skippers
  | .opt p => p.skippers
  | .not p => p.skippers
  | .discard p => p.skippers
  | .lexeme p => p.skippers
  | .bindDst p => p.skippers
  | .construct _ p => p.skippers
  | .action _ p => p.skippers
  | .except op neg => op.skippers ++ neg.skippers
  | .list op sep => op.skippers ++ sep.skippers
  | .withSkipper p s => elabP .fail SkipReqs s :: (p.skippers ++ s.skippers)
  | _ => []
def Pat.skippersAll : List Pat → List Prog
  | [] => []
  | p :: ps => p.skippers ++ Pat.skippersAll ps
end

section
variable {f : Nat → Nat} {c : Nat → Bool} {K : Prog → Prop}

theorem Prog.weightAll_get {ps : List Prog} {k : Nat} {p : Prog} (h : ps[k]? = some p) :
    p.weight f ≤ Prog.weightAll f ps := by
  induction ps generalizing k with
  | nil => cases h
  | cons q ps ih =>
    rw [Prog.weightAll]
    cases k with
    | zero => cases h; omega
    | succ k => have := ih h; omega

theorem Prog.leadAll_get {ps : List Prog} {k : Nat} {p : Prog} (h : ps[k]? = some p) :
    p.lead f c ≤ Prog.leadAll f c ps := by
  induction ps generalizing k with
  | nil => cases h
  | cons q ps ih =>
    rw [Prog.leadAll]
    cases k with
    | zero => cases h; omega
    | succ k => have := ih h; omega

theorem Prog.leadSeq_get {ps : List Prog} {k : Nat} {p : Prog} (h : ps[k]? = some p)
    (hk : ∀ (j : Nat) (q : Prog), j < k → ps[j]? = some q → q.eats c = false) :
    p.lead f c ≤ Prog.leadSeq f c ps := by
  induction ps generalizing k with
  | nil => cases h
  | cons q ps ih =>
    rw [Prog.leadSeq]
    cases k with
    | zero => cases h; omega
    | succ k =>
      rw [if_neg (by rw [hk 0 q (by omega) rfl]; simp)]
      have := ih (k := k) h fun j q hj hq => hk (j + 1) q (by omega) hq
      omega

theorem Prog.allSkipIn_get {ps : List Prog} {k : Nat} {p : Prog} (h : Prog.allSkipIn K ps)
    (hk : ps[k]? = some p) : p.skipsIn K := by
  induction ps generalizing k with
  | nil => cases hk
  | cons q ps ih =>
    cases k with
    | zero => cases hk; exact h.1
    | succ k => exact ih h.2 hk

mutual
theorem Prog.lead_le : ∀ p : Prog, p.lead f c ≤ p.weight f
  | .seq _ ps => by rw [Prog.lead, Prog.weight]; have := (Prog.leads_le ps).1; omega
  | .alt ps => by rw [Prog.lead, Prog.weight]; have := (Prog.leads_le ps).2; omega
  | .rep _ _ p | .opt p | .not p | .discard p | .lexeme p | .bindDst p | .construct _ p
  | .action _ p | .withSkipper p | .atomic p | .clean p => by
    rw [Prog.lead, Prog.weight]; have := p.lead_le; omega
  | .except op neg => by
    rw [Prog.lead, Prog.weight]; have := op.lead_le; have := neg.lead_le; omega
  | .list op sep => by
    rw [Prog.lead, Prog.weight]
    have := op.lead_le; have := sep.lead_le
    split <;> omega
  | .recur id sk => by rw [Prog.lead, Prog.weight]; have := sk.lead_le; omega
  | .skip s p => by rw [Prog.lead, Prog.weight]; have := s.lead_le; have := p.lead_le; omega
  | .char _ | .charSymbol _ | .strLit _ | .symbol _ | .int .. | .uint .. | .eoi | .pass | .fail =>
    Nat.zero_le _
theorem Prog.leads_le : ∀ ps : List Prog, Prog.leadSeq f c ps ≤ Prog.weightAll f ps ∧
    Prog.leadAll f c ps ≤ Prog.weightAll f ps
  | [] => ⟨Nat.le_refl _, Nat.le_refl _⟩
  | p :: ps => by
    rw [Prog.leadSeq, Prog.leadAll, Prog.weightAll]
    have := p.lead_le
    have := Prog.leads_le ps
    refine ⟨?_, by omega⟩
    split <;> omega
end

/-! ### Patterns -/

theorem adapt_lead {sk : Prog} (a b : Bool) {raw : Prog} {n : Nat} (hr : raw.lead f c ≤ n)
    (hs : sk.lead f c ≤ n) : (adapt sk a b raw).lead f c ≤ n := by
  cases h : sk.isFail <;> cases a <;> cases b <;>
    simp only [adapt, h, Prog.lead, if_true, if_false, Bool.false_eq_true] <;> omega

theorem Req.skipper_lead {sk : Prog} (r : Req) {n : Nat} (h : sk.lead f c ≤ n) :
    (r.skipper sk).lead f c ≤ n := by
  unfold Req.skipper; split
  · exact Nat.zero_le _
  · exact h

/-- The sum of `f` over a list. -/
def total (f : Nat → Nat) (l : List Nat) : Nat := (l.map f).sum

theorem total_append (l l' : List Nat) : total f (l ++ l') = total f l + total f l' := by
  simp [total]

mutual
theorem elabP_lead : ∀ (p : Pat) (sk : Prog) (r : Req),
    (elabP sk r p).lead f c ≤ sk.lead f c + total f (p.heads c)
  | .char _, sk, r | .charSymbol _, sk, r | .strLit _, sk, r | .symbol _, sk, r
  | .int .., sk, r | .uint .., sk, r | .eoi, sk, r | .pass, sk, r | .fail, sk, r => by
    rw [elabP]
    exact adapt_lead _ _ (Nat.zero_le _) (r.skipper_lead (by omega))
  | .recur id b, sk, r => by
    rw [elabP]
    refine adapt_lead _ _ ?_ (r.skipper_lead (by omega))
    rw [Prog.lead]
    simp [Pat.heads, total]
    omega
  | .seq ps, sk, r => by
    rw [elabP, Pat.heads]
    refine adapt_lead _ _ ?_ (r.skipper_lead (by omega))
    rw [Prog.lead]
    exact (elabPs_lead ps _ _).1
  | .alt ps, sk, r => by
    rw [elabP, Pat.heads]
    refine adapt_lead _ _ ?_ (r.skipper_lead (by omega))
    rw [Prog.lead]
    exact (elabPs_lead ps _ _).2
  | .rep mn mx p, sk, r => by
    rw [elabP, Pat.heads]
    refine adapt_lead _ _ ?_ (r.skipper_lead (by omega))
    rw [Prog.lead]; exact elabP_lead p _ _
  | .opt p, sk, r => by
    rw [elabP, Pat.heads]
    refine adapt_lead _ _ ?_ (r.skipper_lead (by omega))
    rw [Prog.lead]; exact elabP_lead p _ _
  | .not p, sk, r => by
    rw [elabP, Pat.heads]
    refine adapt_lead _ _ ?_ (r.skipper_lead (by omega))
    rw [Prog.lead]; exact elabP_lead p _ _
  | .discard p, sk, r => by
    rw [elabP, Pat.heads]
    refine adapt_lead _ _ ?_ (r.skipper_lead (by omega))
    rw [Prog.lead]; exact elabP_lead p _ _
  | .lexeme p, sk, r => by
    rw [elabP, Pat.heads]
    refine adapt_lead _ _ ?_ (r.skipper_lead (by omega))
    rw [Prog.lead]
    have := elabP_lead p .fail (r.lower (.lexeme p))
    rw [show Prog.lead f c .fail = 0 from rfl] at this
    omega
  | .bindDst p, sk, r => by
    rw [elabP, Pat.heads]
    refine adapt_lead _ _ ?_ (r.skipper_lead (by omega))
    rw [Prog.lead]; exact elabP_lead p _ _
  | .construct _ p, sk, r => by
    rw [elabP, Pat.heads]
    refine adapt_lead _ _ ?_ (r.skipper_lead (by omega))
    rw [Prog.lead]; exact elabP_lead p _ _
  | .action _ p, sk, r => by
    rw [elabP, Pat.heads]
    refine adapt_lead _ _ ?_ (r.skipper_lead (by omega))
    rw [Prog.lead]; exact elabP_lead p _ _
  | .except op neg, sk, r => by
    rw [elabP, Pat.heads, total_append]
    refine adapt_lead _ _ ?_ (r.skipper_lead (by omega))
    rw [Prog.lead]
    have h1 := elabP_lead op sk { (r.lower (.except op neg)).derive with FAILS_CLEANLY := false }
    have h2 := elabP_lead neg sk ⟨false, true, false, false⟩
    omega
  | .list op sep, sk, r => by
    rw [elabP, Pat.heads, total_append]
    refine adapt_lead _ _ ?_ (r.skipper_lead (by omega))
    rw [Prog.lead, elabP_eats]
    have h1 := elabP_lead op sk ⟨true, false, false, false⟩
    have h2 := elabP_lead sep sk ⟨false, false, false, false⟩
    split <;> omega
  | .withSkipper p s, sk, r => by
    rw [elabP, Pat.heads, total_append]
    refine adapt_lead _ _ ?_ (r.skipper_lead (by omega))
    rw [Prog.lead]
    have h1 := elabP_lead s .fail SkipReqs
    rw [show Prog.lead f c .fail = 0 from rfl] at h1
    have h2 := elabP_lead p (elabP .fail SkipReqs s) (r.lower (.withSkipper p s))
    omega
theorem elabPs_lead : ∀ (ps : List Pat) (sk : Prog) (r : Req),
    Prog.leadSeq f c (elabPs sk r ps) ≤ sk.lead f c + total f (Pat.headsSeq c ps) ∧
    Prog.leadAll f c (elabPs sk r ps) ≤ sk.lead f c + total f (Pat.headsAll c ps)
  | [], _, _ => ⟨Nat.zero_le _, Nat.zero_le _⟩
  | p :: ps, sk, r => by
    rw [elabPs, Prog.leadSeq, Prog.leadAll, Pat.headsSeq, Pat.headsAll, total_append, total_append,
      elabP_eats]
    have h1 := elabP_lead p sk r
    have h2 := elabPs_lead ps sk r
    refine ⟨?_, by omega⟩
    split <;> omega
end

theorem adapt_skipsIn {sk : Prog} (hsk : sk.skipsIn K) (a b : Bool) {raw : Prog}
    (hr : raw.skipsIn K) : (adapt sk a b raw).skipsIn K := by
  cases h : sk.isFail <;> cases a <;> cases b <;> simp [adapt, h, Prog.skipsIn, hr, hsk]

theorem Req.skipper_skipsIn {sk : Prog} (hsk : sk.skipsIn K) (r : Req) :
    (r.skipper sk).skipsIn K := by
  unfold Req.skipper; split
  · exact trivial
  · exact hsk

/-- The skippers that `Recur` objects get are in `K`, if there are any. -/
def SkipsTo (K : Prog → Prop) (sk : Prog) (refs : List Nat) (skippers : List Prog) : Prop :=
  refs ≠ [] → K sk ∧ K .fail ∧ ∀ s ∈ skippers, K s

theorem SkipsTo.mono {sk refs skippers refs' skippers'} (h : SkipsTo K sk refs skippers)
    (hr : ∀ x ∈ refs', x ∈ refs) (hs : ∀ x ∈ skippers', x ∈ skippers) :
    SkipsTo K sk refs' skippers' := by
  intro hn
  have hn' : refs ≠ [] := by
    intro he
    cases refs' with
    | nil => exact hn rfl
    | cons x l => have := hr x (by simp); rw [he] at this; cases this
  exact ⟨(h hn').1, (h hn').2.1, fun s hx => (h hn').2.2 s (hs s hx)⟩

mutual
theorem elabP_skipsIn : ∀ (p : Pat) (sk : Prog) (r : Req), sk.skipsIn K →
    SkipsTo K sk p.refs p.skippers → (elabP sk r p).skipsIn K
  | .char _, sk, r, hs, h | .charSymbol _, sk, r, hs, h | .strLit _, sk, r, hs, h
  | .symbol _, sk, r, hs, h | .int .., sk, r, hs, h | .uint .., sk, r, hs, h | .eoi, sk, r, hs, h
  | .pass, sk, r, hs, h | .fail, sk, r, hs, h => by
    rw [elabP]; exact adapt_skipsIn (r.skipper_skipsIn hs) _ _ trivial
  | .recur id b, sk, r, hs, h => by
    rw [elabP]; exact adapt_skipsIn (r.skipper_skipsIn hs) _ _ ⟨(h (by simp [Pat.refs])).1, hs⟩
  | .seq ps, sk, r, hs, h => by
    rw [elabP]
    exact adapt_skipsIn (r.skipper_skipsIn hs) _ _ (elabPs_skipsIn ps sk _ hs h)
  | .alt ps, sk, r, hs, h => by
    rw [elabP]
    exact adapt_skipsIn (r.skipper_skipsIn hs) _ _ (elabPs_skipsIn ps sk _ hs h)
  | .rep mn mx p, sk, r, hs, h => by
    rw [elabP]; exact adapt_skipsIn (r.skipper_skipsIn hs) _ _ (elabP_skipsIn p _ _ hs h)
  | .opt p, sk, r, hs, h => by
    rw [elabP]; exact adapt_skipsIn (r.skipper_skipsIn hs) _ _ (elabP_skipsIn p _ _ hs h)
  | .not p, sk, r, hs, h => by
    rw [elabP]; exact adapt_skipsIn (r.skipper_skipsIn hs) _ _ (elabP_skipsIn p _ _ hs h)
  | .discard p, sk, r, hs, h => by
    rw [elabP]; exact adapt_skipsIn (r.skipper_skipsIn hs) _ _ (elabP_skipsIn p _ _ hs h)
  | .lexeme p, sk, r, hs, h => by
    rw [elabP]
    exact adapt_skipsIn (r.skipper_skipsIn hs) _ _ (elabP_skipsIn p _ _ trivial
      fun hn => ⟨(h hn).2.1, (h hn).2⟩)
  | .bindDst p, sk, r, hs, h => by
    rw [elabP]; exact adapt_skipsIn (r.skipper_skipsIn hs) _ _ (elabP_skipsIn p _ _ hs h)
  | .construct _ p, sk, r, hs, h => by
    rw [elabP]; exact adapt_skipsIn (r.skipper_skipsIn hs) _ _ (elabP_skipsIn p _ _ hs h)
  | .action _ p, sk, r, hs, h => by
    rw [elabP]; exact adapt_skipsIn (r.skipper_skipsIn hs) _ _ (elabP_skipsIn p _ _ hs h)
  | .except op neg, sk, r, hs, h => by
    rw [elabP]
    rw [Pat.refs, Pat.skippers] at h
    refine adapt_skipsIn (r.skipper_skipsIn hs) _ _ ⟨elabP_skipsIn op _ _ hs (h.mono ?_ ?_),
      elabP_skipsIn neg _ _ hs (h.mono ?_ ?_)⟩ <;> intro x hx <;> simp [hx]
  | .list op sep, sk, r, hs, h => by
    rw [elabP]
    rw [Pat.refs, Pat.skippers] at h
    refine adapt_skipsIn (r.skipper_skipsIn hs) _ _ ⟨elabP_skipsIn op _ _ hs (h.mono ?_ ?_),
      elabP_skipsIn sep _ _ hs (h.mono ?_ ?_)⟩ <;> intro x hx <;> simp [hx]
  | .withSkipper p s, sk, r, hs, h => by
    rw [elabP]
    rw [Pat.refs, Pat.skippers] at h
    have h1 : SkipsTo K sk s.refs s.skippers := by
      refine h.mono ?_ ?_ <;> intro x hx <;> simp [hx]
    have h2 : SkipsTo K sk p.refs (elabP .fail SkipReqs s :: p.skippers) := by
      refine h.mono ?_ ?_ <;> intro x hx <;> simp at hx ⊢
      · simp [hx]
      · rcases hx with hx | hx <;> simp [hx]
    refine adapt_skipsIn (r.skipper_skipsIn hs) _ _ (elabP_skipsIn p _ _
      (elabP_skipsIn s _ _ trivial fun hn => ⟨(h1 hn).2.1, (h1 hn).2⟩) fun hn => ?_)
    exact ⟨(h2 hn).2.2 _ (by simp), (h2 hn).2.1, fun x hx => (h2 hn).2.2 x (by simp [hx])⟩
theorem elabPs_skipsIn : ∀ (ps : List Pat) (sk : Prog) (r : Req), sk.skipsIn K →
    SkipsTo K sk (Pat.refsAll ps) (Pat.skippersAll ps) → Prog.allSkipIn K (elabPs sk r ps)
  | [], _, _, _, _ => trivial
  | p :: ps, sk, r, hs, h => by
    rw [Pat.refsAll, Pat.skippersAll] at h
    rw [elabPs]
    refine ⟨elabP_skipsIn p _ _ hs (h.mono ?_ ?_), elabPs_skipsIn ps _ _ hs (h.mono ?_ ?_)⟩ <;>
      intro x hx <;> simp [hx]
end

end
end Abu
