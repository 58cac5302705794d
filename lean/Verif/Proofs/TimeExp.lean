import Verif.Proofs.TimePoly
import Verif.Proofs.StackRun
/-
A bound on the number of iterations, for parsers with `Recur`.
-/
namespace Abu

mutual
/-- The sizes that are written in a parser class. -/
def Prog.bulk : Prog → Nat
  | .seq _ ps => ps.length + Prog.bulkAll ps
  | .alt ps => ps.length + Prog.bulkAll ps
  | .rep _ mx p => mx + p.bulk
  | .opt p => p.bulk
  | .not p => p.bulk
  | .discard p => p.bulk
  | .lexeme p => p.bulk
  | .bindDst p => p.bulk
  | .construct _ p => p.bulk
  | .action _ p => p.bulk
  | .except op neg => op.bulk + neg.bulk
  | .list op sep => op.bulk + sep.bulk
  | .withSkipper p => p.bulk
  | .recur _ sk => sk.bulk
  | .atomic p => p.bulk
  | .clean p => p.bulk
  | .skip s p => s.bulk + p.bulk
  | .strLit s => s.length + 2
  | .symbol r => r.height + 2
  | .int _ _ mx => mx + 2
  | .uint _ _ mx => mx + 2
  | _ => 2
def Prog.bulkAll : List Prog → Nat
  | [] => 0
  | p :: ps => p.bulk + Prog.bulkAll ps
end

theorem Prog.bulkAll_get {ps : List Prog} {k : Nat} {p : Prog} (h : ps[k]? = some p) :
    p.bulk ≤ Prog.bulkAll ps := by
  induction ps generalizing k with
  | nil => cases h
  | cons q ps ih =>
    rw [Prog.bulkAll]
    cases k with
    | zero => cases h; omega
    | succ k => have := ih h; omega

theorem leafSteps_le_bulk {P : Prog} (hl : P.isLeaf = true) (L : Nat) :
    P.leafSteps L ≤ L + P.bulk := by
  cases P with
  | int _ _ mx => simp only [Prog.leafSteps, Prog.bulk]; split <;> omega
  | uint _ _ mx => simp only [Prog.leafSteps, Prog.bulk]; split <;> omega
  | strLit | symbol => simp only [Prog.leafSteps, Prog.bulk]; omega
  | char | charSymbol | eoi | pass | fail => simp only [Prog.leafSteps, Prog.bulk]; omega
  | _ => cases hl

mutual
/-- Loops consume, and `Recur` objects are set. -/
def Prog.sound (env : Env) (c : Nat → Bool) : Prog → Prop
  | .seq _ ps => Prog.allSound env c ps
  | .alt ps => Prog.allSound env c ps
  | .rep _ mx p => (mx ≠ 0 ∨ p.eats c = true) ∧ p.sound env c
  | .opt p => p.sound env c
  | .not p => p.sound env c
  | .discard p => p.sound env c
  | .lexeme p => p.sound env c
  | .bindDst p => p.sound env c
  | .construct _ p => p.sound env c
  | .action _ p => p.sound env c
  | .except op neg => op.sound env c ∧ neg.sound env c
  | .list op sep => (op.eats c = true ∨ sep.eats c = true) ∧ op.sound env c ∧ sep.sound env c
  | .withSkipper p => p.sound env c
  | .recur id sk => env id ≠ none ∧ sk.sound env c ∧ sk.eats c = true
  | .atomic p => p.sound env c
  | .clean p => p.sound env c
  | .skip s p => s.eats c = true ∧ s.sound env c ∧ p.sound env c
  | _ => True
def Prog.allSound (env : Env) (c : Nat → Bool) : List Prog → Prop
  | [] => True
  | p :: ps => p.sound env c ∧ Prog.allSound env c ps
end

theorem Prog.allSound_get {env : Env} {c : Nat → Bool} {ps : List Prog} {k : Nat} {p : Prog}
    (h : Prog.allSound env c ps) (hk : ps[k]? = some p) : p.sound env c := by
  induction ps generalizing k with
  | nil => cases hk
  | cons q ps ih =>
    cases k with
    | zero => cases hk; exact h.1
    | succ k => exact ih h.2 hk

section
variable {env : Env} {c : Nat → Bool}

theorem adapt_sound {sk raw : Prog} (hs : sk.sound env c) (he : sk.eats c = true) (a b : Bool)
    (hr : raw.sound env c) : (adapt sk a b raw).sound env c := by
  cases h : sk.isFail <;> cases a <;> cases b <;> simp [adapt, h, Prog.sound, hr, hs, he]

theorem Req.skipper_sound {sk : Prog} (hs : sk.sound env c) (he : sk.eats c = true) (r : Req) :
    (r.skipper sk).sound env c ∧ (r.skipper sk).eats c = true := by
  unfold Req.skipper
  split
  · exact ⟨trivial, rfl⟩
  · exact ⟨hs, he⟩

/-- The skipper and the pattern that make a sound class. -/
structure SoundFor (env : Env) (c : Nat → Bool) (sk : Prog) (loops : Bool) (refs : List Nat) : Prop where
  sound : sk.sound env c
  eats : sk.eats c = true
  loops : loops = true
  set : ∀ a ∈ refs, env a ≠ none

theorem SoundFor.adapt {sk raw : Prog} {l refs} (h : SoundFor env c sk l refs) (r : Req) (a b : Bool)
    (hr : raw.sound env c) : (adapt (r.skipper sk) a b raw).sound env c :=
  adapt_sound (Req.skipper_sound h.sound h.eats r).1 (Req.skipper_sound h.sound h.eats r).2 _ _ hr

theorem SoundFor.sub {sk : Prog} {l l' refs refs'} (h : SoundFor env c sk l refs)
    (hl : l = true → l' = true) (hr : ∀ x ∈ refs', x ∈ refs) : SoundFor env c sk l' refs' :=
  ⟨h.sound, h.eats, hl h.loops, fun a ha => h.set a (hr a ha)⟩

mutual
theorem elabP_sound : ∀ (p : Pat) (sk : Prog) (r : Req), SoundFor env c sk (p.loopsEat c) p.refs →
    (elabP sk r p).sound env c
  | .char _, sk, r, h | .charSymbol _, sk, r, h | .strLit _, sk, r, h
  | .symbol _, sk, r, h | .int .., sk, r, h | .uint .., sk, r, h | .eoi, sk, r, h
  | .pass, sk, r, h | .fail, sk, r, h => by
    rw [elabP]; exact h.adapt _ _ _ trivial
  | .recur id b, sk, r, h => by
    rw [elabP]; exact h.adapt _ _ _ ⟨h.set id (by simp [Pat.refs]), h.sound, h.eats⟩
  | .seq ps, sk, r, h => by
    rw [elabP]
    exact h.adapt _ _ _ (elabPs_sound ps sk _ (h.sub (fun h => band_right h) fun _ h => h))
  | .alt ps, sk, r, h => by
    rw [elabP]
    exact h.adapt _ _ _ (elabPs_sound ps sk _ (h.sub (fun h => band_right h) fun _ h => h))
  | .rep mn mx p, sk, r, h => by
    rw [elabP]
    refine h.adapt _ _ _ ⟨?_, elabP_sound p _ _ (h.sub (fun h => band_right h) fun _ h => h)⟩
    rw [elabP_eats]
    have := band_left h.loops
    simpa using this
  | .opt p, sk, r, h => by
    rw [elabP]; exact h.adapt _ _ _ (elabP_sound p _ _ h)
  | .not p, sk, r, h => by
    rw [elabP]; exact h.adapt _ _ _ (elabP_sound p _ _ h)
  | .discard p, sk, r, h => by
    rw [elabP]; exact h.adapt _ _ _ (elabP_sound p _ _ h)
  | .lexeme p, sk, r, h => by
    rw [elabP]; exact h.adapt _ _ _ (elabP_sound p _ _ ⟨trivial, rfl, h.loops, h.set⟩)
  | .bindDst p, sk, r, h => by
    rw [elabP]; exact h.adapt _ _ _ (elabP_sound p _ _ h)
  | .construct _ p, sk, r, h => by
    rw [elabP]; exact h.adapt _ _ _ (elabP_sound p _ _ h)
  | .action _ p, sk, r, h => by
    rw [elabP]; exact h.adapt _ _ _ (elabP_sound p _ _ h)
  | .except op neg, sk, r, h => by
    rw [elabP]
    exact h.adapt _ _ _ ⟨elabP_sound op _ _ (h.sub (fun h => band_left h) fun x hx => by simp [Pat.refs, hx]),
      elabP_sound neg _ _ (h.sub (fun h => band_right h) fun x hx => by simp [Pat.refs, hx])⟩
  | .list op sep, sk, r, h => by
    rw [elabP]
    refine h.adapt _ _ _ ⟨?_, elabP_sound op _ _ (h.sub (fun h => band_right (band_left h))
        fun x hx => by simp [Pat.refs, hx]),
      elabP_sound sep _ _ (h.sub (fun h => band_right h) fun x hx => by simp [Pat.refs, hx])⟩
    rw [elabP_eats, elabP_eats]
    have := band_left (band_left h.loops)
    simpa using this
  | .withSkipper p s, sk, r, h => by
    rw [elabP]
    have hs : (elabP .fail SkipReqs s).sound env c := elabP_sound s _ _
      ⟨trivial, rfl, band_right (band_left h.loops), fun a ha => h.set a (by simp [Pat.refs, ha])⟩
    exact h.adapt _ _ _ (elabP_sound p _ _ ⟨hs, by rw [elabP_eats]; exact band_left (band_left h.loops),
      band_right h.loops, fun a ha => h.set a (by simp [Pat.refs, ha])⟩)
theorem elabPs_sound : ∀ (ps : List Pat) (sk : Prog) (r : Req),
    SoundFor env c sk (Pat.allLoopsEat c ps) (Pat.refsAll ps) →
    Prog.allSound env c (elabPs sk r ps)
  | [], _, _, _ => trivial
  | p :: ps, sk, r, h => by
    rw [elabPs]
    exact ⟨elabP_sound p _ _ (h.sub (fun h => band_left h) fun x hx => by simp [Pat.refsAll, hx]),
      elabPs_sound ps _ _ (h.sub (fun h => band_right h) fun x hx => by simp [Pat.refsAll, hx])⟩
end

/-- Children are sound, and no bigger. -/
theorem CalledIn.sound {lo p b q} (h : CalledIn env c lo p b q) (hp : p.sound env c) :
    (q.sound env c ∧ q.bulk ≤ p.bulk) ∨
      ∃ id sk r, p = .recur id sk ∧ env id = some r ∧ q = elabP sk RecurChildReqs r := by
  cases h with
  | seq hk _ _ =>
    refine .inl ⟨Prog.allSound_get hp hk, ?_⟩
    rw [Prog.bulk]; have := Prog.bulkAll_get hk; omega
  | alt hk _ =>
    refine .inl ⟨Prog.allSound_get hp hk, ?_⟩
    rw [Prog.bulk]; have := Prog.bulkAll_get hk; omega
  | recur h => exact .inr ⟨_, _, _, rfl, h, rfl⟩
  | rep => exact .inl ⟨hp.2, by rw [Prog.bulk]; omega⟩
  | exceptNeg => exact .inl ⟨hp.2, by rw [Prog.bulk]; omega⟩
  | exceptOp _ => exact .inl ⟨hp.1, by rw [Prog.bulk]; omega⟩
  | listOp _ => exact .inl ⟨hp.2.1, by rw [Prog.bulk]; omega⟩
  | listSep _ _ => exact .inl ⟨hp.2.2, by rw [Prog.bulk]; omega⟩
  | skipper _ => exact .inl ⟨hp.2.1, by rw [Prog.bulk]; omega⟩
  | skipped => exact .inl ⟨hp.2.2, by rw [Prog.bulk]; omega⟩
  | _ => exact .inl ⟨hp, by rw [Prog.bulk]; omega⟩

/-- Children are complete. -/
theorem CalledIn.comp (henv : ∀ id q sk, env id = some q → Comp sk → Comp (elabP sk RecurChildReqs q))
    {lo p b q} (h : CalledIn env c lo p b q) (hp : Comp p) : Comp q := by
  cases h with
  | seq hk _ _ => cases hp with | seq _ _ h => exact h _ (List.mem_of_getElem? hk)
  | alt hk _ => cases hp with | alt _ h => exact h _ (List.mem_of_getElem? hk)
  | recur h => cases hp with | recur hs => exact henv _ _ _ h hs
  | _ => cases hp; assumption

/-- With finitely many `Recur` objects, any measure of the classes that are used is bounded. -/
theorem exists_bulk (f g : Prog → Nat) {ids : List Nat} (hids : ∀ id, env id ≠ none → id ∈ ids)
    (p : Pat) : ∃ (K : Prog → Prop) (M B : Nat),
      ((f (topParser p) ≤ M ∧ (topParser p).skipsIn K) ∧ g (topParser p) ≤ B) ∧
      ∀ id q sk, env id = some q → K sk → sk.skipsIn K →
        (f (elabP sk RecurChildReqs q) ≤ M ∧ (elabP sk RecurChildReqs q).skipsIn K) ∧
        g (elabP sk RecurChildReqs q) ≤ B := by
  let pats : List Pat := ids.filterMap env
  let ks : List Prog := .fail :: (p.skippers ++ pats.flatMap Pat.skippers)
  have key : ∀ (f : Prog → Nat) (l : List Prog), ∃ M, ∀ p ∈ l, f p ≤ M := by
    intro f l
    induction l with
    | nil => exact ⟨0, fun p hp => by cases hp⟩
    | cons q l ih =>
      obtain ⟨M, hM⟩ := ih
      refine ⟨M + f q, fun p hp => ?_⟩
      rcases List.mem_cons.1 hp with rfl | hp
      · omega
      · have := hM p hp; omega
  let all : List Prog :=
    topParser p :: pats.flatMap fun q => ks.map fun sk => elabP sk RecurChildReqs q
  obtain ⟨M, hM⟩ := key f all
  obtain ⟨B, hB⟩ := key g all
  have hpat : ∀ id q, env id = some q → q ∈ pats := by
    intro id q hq
    exact List.mem_filterMap.2 ⟨id, hids id (by rw [hq]; simp), hq⟩
  refine ⟨fun sk => sk ∈ ks, M, B, ⟨⟨hM _ (by simp [all]), ?_⟩, hB _ (by simp [all])⟩, ?_⟩
  · refine elabP_skipsIn p _ _ trivial fun _ => ⟨by simp [ks], by simp [ks], fun s hs => ?_⟩
    simp [ks, hs]
  · intro id q sk hq hsk hks
    have hm : elabP sk RecurChildReqs q ∈ all :=
      List.mem_cons_of_mem _ (List.mem_flatMap.2 ⟨q, hpat id q hq, List.mem_map.2 ⟨sk, hsk, rfl⟩⟩)
    refine ⟨⟨hM _ hm, ?_⟩, hB _ hm⟩
    refine elabP_skipsIn q _ _ hks fun _ => ⟨hsk, by simp [ks], fun s hs => ?_⟩
    refine List.mem_cons_of_mem _ (List.mem_append_right _ ?_)
    exact List.mem_flatMap.2 ⟨q, hpat id q hq, hs⟩

end

/-! ### One class at a time -/

section
variable {env : Env} {t : List Ch} {c : Nat → Bool}

/-- The parser returns after at most `B` iterations when constructed at `lo` or later. -/
def TakesFrom (env : Env) (t : List Ch) (lo : Nat) (P : Prog) (B : Nat) : Prop :=
  ∀ i own S, Start t lo P i own → EndsBy env t P (fresh P) i (own ++ S) B

theorem TakesFrom.mono {lo P B B'} (h : TakesFrom env t lo P B) (hB : B ≤ B') :
    TakesFrom env t lo P B' := fun i own S hs => (h i own S hs).mono hB

theorem TakesFrom.from {lo b P B} (h : TakesFrom env t lo P B) (hb : lo ≤ b) :
    TakesFrom env t b P B := fun i own S hs => h i own S (hs.mono hb)

variable (henv : ∀ id q sk, env id = some q → Comp sk → Comp (elabP sk RecurChildReqs q))
variable (hc : ∀ id q, env id = some q → c id = true → q.eats c = true)

include henv hc

theorem endsBy_child_from {P st i S cp b own A B} (hch : childOf P st = some (cp, fresh cp))
    (hcp : Comp cp) (hb : TakesFrom env t b cp A) (hs : Start t b cp i own)
    (h : ∀ r i1 L, Ended t c b cp r i1 L →
      ∃ it, after P st r .unit i1 (L ++ S) = some it ∧
        ∀ st2 i2 S2, it = .cont st2 i2 S2 → EndsBy env t P st2 i2 S2 B) :
    EndsBy env t P st i (own ++ S) (A + 1 + B) := by
  refine endsBy_iter hch (hb i own S hs) fun r i1 S1 hbig => ?_
  obtain ⟨L, rfl, he⟩ := low_ended henv hc hbig hcp rfl (.inr ⟨rfl, hs⟩)
  exact h r i1 L he

theorem takesFrom_once {lo P p A} (hP : Comp P) (hl : P.isLeaf = false)
    (hr : ∀ id sk, P ≠ .recur id sk)
    (hch : childOf P (fresh P) = some (p, fresh p)) (hp : TakesFrom env t lo p A)
    (hno : ∀ r cs i S st2 i2 S2, after P (fresh P) r cs i S ≠ some (.cont st2 i2 S2)) :
    TakesFrom env t lo P (A + 1) := by
  intro i own S hs
  have hsit : Sit t c lo P (fresh P) i own := hs.sit hP hl hr
  obtain ⟨_, b, own', rest, rfl, hb, hst, hnext⟩ := sit_step hsit hP hch
  rw [List.append_assoc]
  refine endsBy_child_from (B := 0) henv hc hch (childOf_comp hch hP) (hp.from hb) hst fun r i1 L he => ?_
  have hn := hnext r .unit i1 L S he
  cases ha : after P (fresh P) r .unit i1 (L ++ (rest ++ S)) with
  | none => rw [ha] at hn; exact hn.elim
  | some it =>
    refine ⟨it, rfl, fun st2 i2 S2 h => ?_⟩
    subst h
    exact absurd ha (hno _ _ _ _ _ _ _)

theorem takesFrom_seq {lo slots A} {ps : List Prog} (hP : Comp (.seq slots ps))
    (h : ∀ b q, CalledIn env c lo (.seq slots ps) b q → b ≤ t.length → TakesFrom env t b q A) :
    TakesFrom env t lo (.seq slots ps) (ps.length * (A + 1)) := by
  have key : ∀ d k p b i own S, ps.length - k = d → ps[k]? = some p → lo ≤ b →
      (∀ j q, j < k → ps[j]? = some q → q.eats c = true → lo < b) → Start t b p i own →
      EndsBy env t (.seq slots ps) (.seq k (fresh p)) i (own ++ S) (d * (A + 1)) := by
    intro d
    induction d with
    | zero =>
      intro k p b i own S hd hp
      have := (List.getElem?_eq_some_iff.1 hp).1
      omega
    | succ d ih =>
      intro k p b i own S hd hp hb hk hs
      have hlt := (List.getElem?_eq_some_iff.1 hp).1
      have hch : childOf (.seq slots ps) (.seq k (fresh p)) = some (p, fresh p) := by
        simp [childOf, hp]
      rw [show (d + 1) * (A + 1) = A + 1 + d * (A + 1) by rw [Nat.succ_mul]; omega]
      refine endsBy_child_from henv hc hch (childOf_comp hch hP)
        (h b p (.seq hp hb hk) (Nat.le_trans hs.low hs.high)) hs fun r i1 L he => ?_
      cases r with
      | SUCCESS =>
        simp only [after]
        split
        · rename_i p' s' hp' hs'
          refine ⟨_, rfl, fun st2 i2 S2 h => ?_⟩
          cases h
          refine ih (k + 1) p' i1 i1 _ _ (by omega) hp' (Nat.le_trans hb he.low) ?_
            (.new (Nat.le_refl _) he.high)
          intro j q hj hq hqe
          rcases Nat.lt_or_ge j k with hjk | hjk
          · exact Nat.lt_of_lt_of_le (hk j q hjk hq hqe) he.low
          · have : j = k := by omega
            subst this
            rw [hp] at hq; cases hq
            exact Nat.lt_of_le_of_lt hb (he.ate rfl hqe)
        · exact ⟨_, rfl, fun _ _ _ h => by cases h⟩
      | FAILURE => exact ⟨_, rfl, fun _ _ _ h => by cases h⟩
      | PARTIAL => exact ⟨_, rfl, fun _ _ _ h => by cases h⟩
  intro i own S hs
  have hsit : Sit t c lo (.seq slots ps) (fresh (.seq slots ps)) i own :=
    hs.sit hP rfl (by intros; simp)
  generalize hf : fresh (.seq slots ps) = st at hsit ⊢
  cases hsit with
  | @seq _ _ k p b _ _ hp hb hk hst =>
    exact (key _ _ _ _ _ _ _ rfl hp hb hk hst).mono (Nat.mul_le_mul_right _ (Nat.sub_le _ _))

theorem takesFrom_alt {lo A} {ps : List Prog} (hP : Comp (.alt ps))
    (h : ∀ b q, CalledIn env c lo (.alt ps) b q → b ≤ t.length → TakesFrom env t b q A) :
    TakesFrom env t lo (.alt ps) (ps.length * (A + 1)) := by
  have key : ∀ d k p b i own S, ps.length - k = d → ps[k]? = some p → lo ≤ b → Start t b p i own →
      EndsBy env t (.alt ps) (.alt k (fresh p)) i (own ++ S) (d * (A + 1)) := by
    intro d
    induction d with
    | zero =>
      intro k p b i own S hd hp
      have := (List.getElem?_eq_some_iff.1 hp).1
      omega
    | succ d ih =>
      intro k p b i own S hd hp hb hs
      have hlt := (List.getElem?_eq_some_iff.1 hp).1
      have hch : childOf (.alt ps) (.alt k (fresh p)) = some (p, fresh p) := by
        simp [childOf, hp]
      rw [show (d + 1) * (A + 1) = A + 1 + d * (A + 1) by rw [Nat.succ_mul]; omega]
      refine endsBy_child_from henv hc hch (childOf_comp hch hP)
        (h b p (.alt hp hb) (Nat.le_trans hs.low hs.high)) hs fun r i1 L he => ?_
      cases r with
      | FAILURE =>
        simp only [after]
        split
        · rename_i p' hp'
          refine ⟨_, rfl, fun st2 i2 S2 h => ?_⟩
          cases h
          exact ih (k + 1) p' i1 i1 _ _ (by omega) hp' (Nat.le_trans hb he.low)
            (.new (Nat.le_refl _) he.high)
        · exact ⟨_, rfl, fun _ _ _ h => by cases h⟩
      | SUCCESS => exact ⟨_, rfl, fun _ _ _ h => by cases h⟩
      | PARTIAL => exact ⟨_, rfl, fun _ _ _ h => by cases h⟩
  intro i own S hs
  have hsit : Sit t c lo (.alt ps) (fresh (.alt ps)) i own :=
    hs.sit hP rfl (by intros; simp)
  generalize hf : fresh (.alt ps) = st at hsit ⊢
  cases hsit with
  | @alt _ k p b _ _ hp hb hst =>
    exact (key _ _ _ _ _ _ _ rfl hp hb hst).mono (Nat.mul_le_mul_right _ (Nat.sub_le _ _))

/-- A bounded repetition. -/
theorem takesFrom_times {lo mn mx p A} (hp : Comp p) (hmx : mx ≠ 0)
    (h : ∀ b, lo ≤ b → b ≤ t.length → TakesFrom env t b p A) :
    TakesFrom env t lo (.rep mn mx p) (mx * (A + 1)) := by
  have key : ∀ d n b i own S, mx - n = d → n < mx → lo ≤ b → Start t b p i own →
      EndsBy env t (.rep mn mx p) (.rep n (fresh p)) i (own ++ S) (d * (A + 1)) := by
    intro d
    induction d with
    | zero => intro n b i own S hd hn; omega
    | succ d ih =>
      intro n b i own S hd hn hb hs
      rw [show (d + 1) * (A + 1) = A + 1 + d * (A + 1) by rw [Nat.succ_mul]; omega]
      refine endsBy_child_from henv hc rfl hp (h b hb (Nat.le_trans hs.low hs.high)) hs
        fun r i1 L hend => ?_
      cases r with
      | SUCCESS =>
        simp only [after]
        split
        · exact ⟨_, rfl, fun _ _ _ h => by cases h⟩
        · refine ⟨_, rfl, fun st2 i2 S2 h => ?_⟩
          cases h
          exact ih (n + 1) i1 i1 _ _ (by omega) (by omega) (Nat.le_trans hb hend.low)
            (.new (Nat.le_refl _) hend.high)
      | FAILURE => exact ⟨_, rfl, fun _ _ _ h => by cases h⟩
      | PARTIAL => exact ⟨_, rfl, fun _ _ _ h => by cases h⟩
  intro i own S hs
  exact key _ 0 lo i own S rfl (by omega) (Nat.le_refl _) ⟨hs.low, hs.high, hs.len, hs.own⟩

/-- A repetition of what consumes: `y` bounds what remains to do. -/
theorem takesFrom_rep {lo mn mx p} {x y : Nat → Nat} (hp : Comp p) (he : p.eats c = true)
    (h : ∀ b, lo ≤ b → b ≤ t.length → TakesFrom env t b p (x b))
    (hy : ∀ b, b ≤ t.length → x b + 1 ≤ y b)
    (hxy : ∀ b b', b < b' → b' ≤ t.length → x b + 1 + y b' ≤ y b) :
    TakesFrom env t lo (.rep mn mx p) (y lo) := by
  have key : ∀ d n b i own S, t.length - b = d → lo ≤ b → Start t b p i own →
      EndsBy env t (.rep mn mx p) (.rep n (fresh p)) i (own ++ S) (y b) := by
    intro d
    induction d using Nat.strongRecOn with
    | ind d ih =>
      intro n b i own S hd hb hs
      have hbl := Nat.le_trans hs.low hs.high
      have hyb := hy b hbl
      refine (endsBy_child_from (B := y b - (x b + 1)) henv hc rfl hp (h b hb hbl) hs
        fun r i1 L hend => ?_).mono (by omega)
      cases r with
      | SUCCESS =>
        simp only [after]
        split
        · exact ⟨_, rfl, fun _ _ _ h => by cases h⟩
        · refine ⟨_, rfl, fun st2 i2 S2 h => ?_⟩
          cases h
          have hate := hend.ate rfl he
          have hhigh := hend.high
          have := hxy b i1 hate hhigh
          exact (ih (t.length - i1) (by omega) (n + 1) i1 i1 _ _ rfl (by omega)
            (.new (Nat.le_refl _) hhigh)).mono (by omega)
      | FAILURE => exact ⟨_, rfl, fun _ _ _ h => by cases h⟩
      | PARTIAL => exact ⟨_, rfl, fun _ _ _ h => by cases h⟩
  intro i own S hs
  exact key _ 0 lo i own S rfl (Nat.le_refl _) ⟨hs.low, hs.high, hs.len, hs.own⟩

theorem takesFrom_except {lo op neg A} (ho : Comp op) (hn : Comp neg)
    (h1 : TakesFrom env t lo op A) (h2 : TakesFrom env t lo neg A) :
    TakesFrom env t lo (.except op neg) (A + 1 + (A + 1)) := by
  intro i own S hs
  refine endsBy_child_from henv hc rfl hn h2 ⟨hs.low, hs.high, hs.len, hs.own⟩ fun r i1 L he => ?_
  cases r with
  | FAILURE =>
    refine ⟨_, rfl, fun st2 i2 S2 h => ?_⟩
    cases h
    refine endsBy_child_from (B := 0) henv hc rfl ho h1 (.new he.low he.high)
      fun r i1 L he => ?_
    cases r <;> exact ⟨_, rfl, fun _ _ _ h => by cases h⟩
  | _ => exact ⟨_, rfl, fun _ _ _ h => by cases h⟩

theorem takesFrom_list {lo op sep} {x y : Nat → Nat} (ho : Comp op) (hs : Comp sep)
    (he : op.eats c = true ∨ sep.eats c = true)
    (h1 : ∀ b, lo ≤ b → b ≤ t.length → TakesFrom env t b op (x b))
    (h2 : ∀ b b', lo ≤ b → b ≤ b' → b' ≤ t.length → (op.eats c = true → b < b') →
      TakesFrom env t b' sep (x b))
    (hy : ∀ b, b ≤ t.length → 2 * (x b + 1) ≤ y b)
    (hxy : ∀ b b', b < b' → b' ≤ t.length → 2 * (x b + 1) + y b' ≤ y b) :
    TakesFrom env t lo (.list op sep) (y lo) := by
  have key : ∀ d b i own m S, lo ≤ b → t.length - b = d → Start t b op i own → lo ≤ m →
      m ≤ t.length → EndsBy env t (.list op sep) (.list false (fresh op)) i (own ++ (m :: S)) (y b) := by
    intro d
    induction d using Nat.strongRecOn with
    | ind d ih =>
      intro b i own m S hb hd hst hm hm'
      have hbl := Nat.le_trans hst.low hst.high
      have hyb := hy b hbl
      refine (endsBy_child_from (B := x b + 1 + (y b - 2 * (x b + 1))) henv hc rfl ho (h1 b hb hbl) hst
        fun r i1 L hend => ?_).mono (by omega)
      have hlow := hend.low
      cases r with
      | SUCCESS =>
        obtain ⟨x', L', e, _, _, _⟩ := pop_own (S := S) (hend.left.mono hb) hm hm'
        have e : L ++ m :: S = x' :: (L' ++ S) := e
        refine ⟨_, by simp only [after, e, newChild]; rfl, fun st2 i2 S2 h => ?_⟩
        cases h
        refine endsBy_child_from henv hc rfl hs (h2 b i1 hb hlow hend.high fun h => hend.ate rfl h)
          (.new (Nat.le_refl _) hend.high) fun r i2 L2 hend2 => ?_
        have hlow2 := hend2.low
        have hhigh2 := hend2.high
        cases r with
        | SUCCESS =>
          refine ⟨_, rfl, fun st2 i2 S2 h => ?_⟩
          cases h
          have hlt : b < i2 := by
            rcases he with he | he
            · have := hend.ate rfl he; omega
            · have := hend2.ate rfl he; omega
          obtain ⟨y', L3, e3, hy', hy'', _⟩ := pop_own (S := L' ++ S) (lo := lo) (m := i1)
            (hend2.left.mono (by omega)) (by omega) hend.high
          have e3 : L2 ++ i1 :: (L' ++ S) = y' :: (L3 ++ (L' ++ S)) := e3
          rw [e3]
          have := hxy b i2 hlt hhigh2
          exact (ih (t.length - i2) (by omega) i2 i2 _ y' _ (by omega) rfl
            (.new (Nat.le_refl _) hhigh2) hy' hy'').mono (by omega)
        | FAILURE =>
          cases L2 <;> exact ⟨_, rfl, fun _ _ _ h => by cases h⟩
        | PARTIAL => exact ⟨_, rfl, fun _ _ _ h => by cases h⟩
      | FAILURE => cases L <;> exact ⟨_, rfl, fun _ _ _ h => by cases h⟩
      | PARTIAL => exact ⟨_, rfl, fun _ _ _ h => by cases h⟩
  intro i own S hst
  obtain ⟨own', m, rfl, h4, h5, h6⟩ := hst.split (p := op) rfl
  rw [List.append_assoc]
  exact key _ lo i own' m S (Nat.le_refl _) rfl h4 h5 h6

theorem takesFrom_skip {lo s p A} {x y : Nat → Nat} (hs : Comp s) (hp : Comp p) (he : s.eats c = true)
    (h1 : ∀ b, lo ≤ b → b ≤ t.length → TakesFrom env t b s (x b)) (h2 : TakesFrom env t lo p A)
    (hy : ∀ b, b ≤ t.length → x b + 1 ≤ y b)
    (hxy : ∀ b b', b < b' → b' ≤ t.length → x b + 1 + y b' ≤ y b) :
    TakesFrom env t lo (.skip s p) (y lo + (A + 1)) := by
  have key : ∀ d b i own own2 S, lo ≤ b → t.length - b = d → Start t b s i own →
      own2.length = marks p → Within t lo own2 →
      EndsBy env t (.skip s p) (.skip false (fresh s) (fresh p)) i (own ++ (own2 ++ S))
        (y b + (A + 1)) := by
    intro d
    induction d using Nat.strongRecOn with
    | ind d ih =>
      intro b i own own2 S hb hd hst hl2 hw2
      have hbl := Nat.le_trans hst.low hst.high
      have hyb := hy b hbl
      refine (endsBy_child_from (B := y b - (x b + 1) + (A + 1)) henv hc rfl hs (h1 b hb hbl) hst
        fun r i1 L hend => ?_).mono (by omega)
      have hlow := hend.low
      obtain ⟨a, d', e, h3, _, h4, _⟩ := split_own (n := marks p) (k := L.length)
        (by rw [List.length_append, hl2, Nat.add_comm]) ((hend.left.mono hb).append hw2)
      have e' : L ++ (own2 ++ S) = a ++ (d' ++ S) := by
        rw [← List.append_assoc, e, List.append_assoc]
      rw [e']
      cases r with
      | SUCCESS =>
        refine ⟨_, rfl, fun st2 i2 S2 h => ?_⟩
        cases h
        have hhigh := hend.high
        have hate := hend.ate rfl he
        have := hxy b i1 hate hhigh
        exact (ih (t.length - i1) (by omega) i1 i1 _ a _ (by omega) rfl
          (.new (Nat.le_refl _) hend.high) h3 h4).mono (by omega)
      | FAILURE =>
        refine ⟨_, rfl, fun st2 i2 S2 h => ?_⟩
        cases h
        refine (endsBy_child_from (B := 0) henv hc rfl hp h2 ⟨by omega, hend.high, h3, h4⟩
          fun r i1 L he => ?_).mono (by omega)
        cases r <;> exact ⟨_, rfl, fun _ _ _ h => by cases h⟩
      | PARTIAL => exact ⟨_, rfl, fun _ _ _ h => by cases h⟩
  intro i own S hst
  obtain ⟨a, b, rfl, ha, hb, wa, wb⟩ := split_own hst.len hst.own
  rw [List.append_assoc]
  exact key _ lo i a b S (Nat.le_refl _) rfl ⟨hst.low, hst.high, ha, wa⟩ hb wb

end

/-! ### All together -/

section
variable {env : Env} {c : Nat → Bool} {f : Nat → Nat}

/-- What is needed of a class. -/
structure Steady (env : Env) (c : Nat → Bool) (f : Nat → Nat) (K : Prog → Prop) (M B : Nat) (p : Prog) :
    Prop where
  sized : Sized f K M p
  bulk : p.bulk ≤ B
  comp : Comp p
  sound : p.sound env c

theorem exp_lt {C D a N : Nat} (h : a < N) (hC : 1 ≤ C) : C * (D * C ^ a) ≤ D * C ^ N := by
  have h1 : C ^ (a + 1) ≤ C ^ N := Nat.pow_le_pow_right hC h
  have h2 := Nat.mul_le_mul_left D h1
  rw [Nat.pow_succ] at h2
  rw [Nat.mul_comm C, Nat.mul_assoc]
  exact h2

theorem needs_drop {M lim b b' : Nat} (p : Prog) (h : b < b') (h' : b' ≤ lim) :
    needs f c M lim b' p < needs f c M lim b p := by
  unfold needs
  have h1 : (lim - b') + 1 ≤ lim - b := by omega
  have h2 := Nat.mul_le_mul_left ((M + 1) * (M + 1)) h1
  rw [Nat.mul_add, Nat.mul_one] at h2
  have : 1 ≤ (M + 1) * (M + 1) := Nat.mul_pos (by omega) (by omega)
  omega

theorem Prog.weight_pos (p : Prog) : 1 ≤ p.weight f := by
  cases p <;> simp only [Prog.weight] <;> omega

/-- What is needed of the patterns used through `Recur`. -/
structure SteadyEnv (env : Env) (c : Nat → Bool) (f : Nat → Nat) (K : Prog → Prop) (M B : Nat) :
    Prop where
  comp : ∀ id q sk, env id = some q → Comp sk → Comp (elabP sk RecurChildReqs q)
  eats : ∀ id q, env id = some q → c id = true → q.eats c = true
  potential : Potential env c f
  sized : ∀ id q sk, env id = some q → K sk → sk.skipsIn K →
    Sized f K M (elabP sk RecurChildReqs q) ∧ (elabP sk RecurChildReqs q).bulk ≤ B
  sound : ∀ id q sk, env id = some q → sk.sound env c → sk.eats c = true →
    (elabP sk RecurChildReqs q).sound env c

theorem Steady.child {K : Prog → Prop} {M B lim : Nat} (hE : SteadyEnv env c f K M B) {lo P b q}
    (hP : Steady env c f K M B P) (hi : CalledIn env c lo P b q) (hb : b ≤ lim) :
    Steady env c f K M B q ∧ needs f c M lim b q < needs f c M lim lo P := by
  obtain ⟨h1, h2⟩ := needs_lt hE.potential (fun id q sk hq hk hs => (hE.sized id q sk hq hk hs).1)
    hP.sized hi hb
  refine ⟨⟨h1, ?_, hi.comp hE.comp hP.comp, ?_⟩, h2⟩
  · rcases hi.sound hP.sound with h | ⟨id, sk, r, rfl, hr, rfl⟩
    · exact Nat.le_trans h.2 hP.bulk
    · exact (hE.sized id r sk hr hP.sized.2.1 hP.sized.2.2).2
  · rcases hi.sound hP.sound with h | ⟨id, sk, r, rfl, hr, rfl⟩
    · exact h.1
    · exact hE.sound id r sk hr hP.sound.2.1 hP.sound.2.2

/-- The number of iterations is exponential at most. -/
theorem takesFrom_exp {K : Prog → Prop} {M B : Nat} {t : List Ch} (hE : SteadyEnv env c f K M B) :
    ∀ N lo P, needs f c M t.length lo P = N → Steady env c f K M B P → lo ≤ t.length →
      TakesFrom env t lo P ((t.length + B + 1) * (2 * B + 5) ^ N) := by
  intro N
  induction N using Nat.strongRecOn with
  | ind N ih =>
  intro lo P hN hP hlo
  have hC : 1 ≤ 2 * B + 5 := by omega
  have hD : 1 ≤ t.length + B + 1 := by omega
  have hpos : ∀ a, 1 ≤ (t.length + B + 1) * (2 * B + 5) ^ a := fun a =>
    Nat.mul_pos hD (Nat.pow_pos hC)
  -- five times what a child takes is not too much
  have five : ∀ {a N}, a < N → 5 * ((t.length + B + 1) * (2 * B + 5) ^ a) ≤
      (t.length + B + 1) * (2 * B + 5) ^ N := fun {a N} h =>
    Nat.le_trans (Nat.mul_le_mul_right _ (by omega)) (exp_lt h hC)
  have many : ∀ {a N n}, a < N → n ≤ B → n * ((t.length + B + 1) * (2 * B + 5) ^ a + 1) ≤
      (t.length + B + 1) * (2 * B + 5) ^ N := by
    intro a N n h hn
    refine Nat.le_trans ?_ (exp_lt h hC)
    have h1 := Nat.mul_le_mul_left n (hpos a)
    have h2 := Nat.mul_le_mul_right ((t.length + B + 1) * (2 * B + 5) ^ a)
      (show n + n ≤ 2 * B + 5 by omega)
    rw [Nat.add_mul] at h2
    rw [Nat.mul_add]
    omega
  have from' : ∀ {b q}, lo ≤ b → CalledIn env c b P b q → b ≤ t.length →
      TakesFrom env t b q ((t.length + B + 1) * (2 * B + 5) ^ needs f c M t.length b q) := by
    intro b q hb hi hbl
    obtain ⟨h1, h2⟩ := hP.child hE hi hbl
    refine ih _ ?_ b q rfl h1 hbl
    rcases Nat.lt_or_ge lo b with h | h
    · have := needs_drop (f := f) (c := c) (M := M) P h hbl; omega
    · have : b = lo := by omega
      subst this; omega
  have hin : ∀ {b q}, CalledIn env c lo P b q → b ≤ t.length →
      TakesFrom env t b q ((t.length + B + 1) * (2 * B + 5) ^ (N - 1)) ∧ N - 1 < N := by
    intro b q hi hbl
    obtain ⟨h1, h2⟩ := hP.child hE hi hbl
    refine ⟨(ih _ (by omega) b q rfl h1 hbl).mono (Nat.mul_le_mul_left _
      (Nat.pow_le_pow_right hC (by omega))), by omega⟩
  have once : ∀ {p}, P.isLeaf = false → (∀ id sk, P ≠ .recur id sk) →
      childOf P (fresh P) = some (p, fresh p) → CalledIn env c lo P lo p →
      (∀ r cs i S st2 i2 S2, after P (fresh P) r cs i S ≠ some (.cont st2 i2 S2)) →
      TakesFrom env t lo P ((t.length + B + 1) * (2 * B + 5) ^ N) := by
    intro p hl hr hch hi hno
    obtain ⟨h1, h2⟩ := hin hi hlo
    refine (takesFrom_once hE.comp hE.eats hP.comp hl hr hch h1 hno).mono ?_
    have := five h2
    have := hpos (N - 1)
    omega
  have leaf : P.isLeaf = true → TakesFrom env t lo P ((t.length + B + 1) * (2 * B + 5) ^ N) := by
    intro hl i own S hs
    obtain ⟨n, r, st', i', hr, _⟩ := leaf_halts (env := env) (t := t) hl i (own ++ S)
    refine ⟨r, i', _, _, .leaf hl hr, Nat.le_trans (steps_leaf_le hl hs.high _ _) ?_⟩
    refine Nat.le_trans (leafSteps_le_bulk hl _) ?_
    have h1 := hP.bulk
    have h2 := Nat.mul_le_mul_left (t.length + B + 1) (show 1 ≤ (2 * B + 5) ^ N from Nat.pow_pos hC)
    omega
  cases P with
  | char | charSymbol | strLit | symbol | int | uint | eoi | pass | fail => exact leaf rfl
  | seq slots ps =>
    have hB := hP.bulk
    rw [Prog.bulk] at hB
    obtain ⟨q, hq⟩ : ∃ q, ps[0]? = some q := by
      cases ps with
      | nil => cases hP.comp with | seq h _ _ => exact absurd rfl h
      | cons q ps => exact ⟨q, rfl⟩
    have hlt := (hin (.seq (k := 0) hq (Nat.le_refl _) (fun j _ hj => by omega)) hlo).2
    exact (takesFrom_seq hE.comp hE.eats hP.comp fun b q hi hb => (hin hi hb).1).mono
      (many hlt (by omega))
  | alt ps =>
    have hB := hP.bulk
    rw [Prog.bulk] at hB
    obtain ⟨q, hq⟩ : ∃ q, ps[0]? = some q := by
      cases ps with
      | nil => cases hP.comp with | alt h _ => exact absurd rfl h
      | cons q ps => exact ⟨q, rfl⟩
    have hlt := (hin (.alt (k := 0) hq (Nat.le_refl _)) hlo).2
    exact (takesFrom_alt hE.comp hE.eats hP.comp fun b q hi hb => (hin hi hb).1).mono
      (many hlt (by omega))
  | rep mn mx p =>
    have hB := hP.bulk
    rw [Prog.bulk] at hB
    have hcp : Comp p := by cases hP.comp; assumption
    by_cases he : p.eats c = true
    · subst hN
      refine takesFrom_rep (x := fun b => (t.length + B + 1) * (2 * B + 5) ^ needs f c M t.length b p)
        (y := fun b => (t.length + B + 1) * (2 * B + 5) ^ needs f c M t.length b (.rep mn mx p))
        hE.comp hE.eats hcp he (fun b hb hbl => from' hb (.rep (Nat.le_refl _)) hbl) ?_ ?_
      · intro b hbl
        have := five (hP.child hE (.rep (lo := b) (Nat.le_refl _)) hbl).2
        have := hpos (needs f c M t.length b p)
        omega
      · intro b b' hbb hbl
        have := five (hP.child hE (.rep (lo := b) (Nat.le_refl _)) (show b ≤ t.length by omega)).2
        have := five (needs_drop (f := f) (c := c) (M := M) (.rep mn mx p) hbb hbl)
        have := hpos (needs f c M t.length b p)
        omega
    · have hmx : mx ≠ 0 := hP.sound.1.resolve_right he
      have hlt := (hin (.rep (Nat.le_refl _)) hlo).2
      exact (takesFrom_times hE.comp hE.eats hcp hmx fun b hb hbl => (hin (.rep hb) hbl).1).mono
        (many hlt (by omega))
  | opt p =>
    exact once rfl (by simp) rfl .opt
      (by intro r cs i S; intros; cases r <;> cases S <;> simp [after, back])
  | not p =>
    exact once rfl (by simp) rfl .not
      (by intro r cs i S; intros; cases r <;> cases S <;> simp [after, back])
  | discard p =>
    exact once rfl (by simp) rfl .discard
      (by intro r cs i S; intros; cases r <;> simp [after])
  | lexeme p =>
    exact once rfl (by simp) rfl .lexeme
      (by intro r cs i S; intros; cases r <;> simp [after])
  | bindDst p =>
    exact once rfl (by simp) rfl .bindDst
      (by intro r cs i S; intros; cases r <;> simp [after])
  | construct tys p =>
    exact once rfl (by simp) rfl .construct
      (by intro r cs i S; intros; cases r <;> simp [after])
  | action a p =>
    exact once rfl (by simp) rfl .action
      (by intro r cs i S; intros; cases r <;> simp [after])
  | withSkipper p =>
    exact once rfl (by simp) rfl .withSkipper
      (by intro r cs i S; intros; cases r <;> simp [after])
  | atomic p =>
    exact once rfl (by simp) rfl .atomic
      (by intro r cs i S; intros; cases r <;> simp [after])
  | clean p =>
    exact once rfl (by simp) rfl .clean
      (by intro r cs i S; intros; cases r <;> cases S <;> simp [after, back])
  | except op neg =>
    have hco : Comp op ∧ Comp neg := by cases hP.comp; exact ⟨by assumption, by assumption⟩
    obtain ⟨h1, h2⟩ := hin .exceptNeg hlo
    refine (takesFrom_except hE.comp hE.eats hco.1 hco.2 (hin (.exceptOp (Nat.le_refl _)) hlo).1 h1).mono ?_
    have := five h2
    have := hpos (N - 1)
    omega
  | list op sep =>
    have hco : Comp op ∧ Comp sep := by cases hP.comp; exact ⟨by assumption, by assumption⟩
    subst hN
    have hpred : ∀ b, b ≤ t.length →
        needs f c M t.length b (.list op sep) - 1 < needs f c M t.length b (.list op sep) := by
      intro b hb
      have := (hP.child hE (.listOp (lo := b) (Nat.le_refl _)) hb).2
      omega
    have hdown : ∀ {b b' q}, lo ≤ b → CalledIn env c b (.list op sep) b' q → b' ≤ t.length →
        b ≤ t.length → TakesFrom env t b' q ((t.length + B + 1) *
          (2 * B + 5) ^ (needs f c M t.length b (.list op sep) - 1)) := by
      intro b b' q hb hi hbl hbl'
      obtain ⟨h1, h2⟩ := hP.child hE hi hbl
      refine (ih _ ?_ b' q rfl h1 hbl).mono (Nat.mul_le_mul_left _ (Nat.pow_le_pow_right hC (by omega)))
      rcases Nat.lt_or_ge lo b with h | h
      · have := needs_drop (f := f) (c := c) (M := M) (.list op sep) h hbl'; omega
      · have : b = lo := by omega
        subst this; omega
    refine takesFrom_list
      (x := fun b => (t.length + B + 1) * (2 * B + 5) ^ (needs f c M t.length b (.list op sep) - 1))
      (y := fun b => (t.length + B + 1) * (2 * B + 5) ^ needs f c M t.length b (.list op sep))
      hE.comp hE.eats hco.1 hco.2 hP.sound.1 (fun b hb hbl => hdown hb (.listOp (Nat.le_refl _)) hbl hbl)
      (fun b b' hb hbb hbl he => hdown hb (.listSep hbb he) hbl (by omega)) ?_ ?_
    · intro b hbl
      have := five (hpred b hbl)
      have := hpos (needs f c M t.length b (.list op sep) - 1)
      omega
    · intro b b' hbb hbl
      have := five (hpred b (by omega))
      have := five (needs_drop (f := f) (c := c) (M := M) (.list op sep) hbb hbl)
      have := hpos (needs f c M t.length b (.list op sep) - 1)
      have := hpos (needs f c M t.length b' (.list op sep))
      omega
  | recur id sk =>
    cases hq : env id with
    | none => exact absurd hq hP.sound.1
    | some q =>
      obtain ⟨h1, h2⟩ := hin (.recur hq) hlo
      intro i own S hs
      obtain ⟨r', i', S', k, hb, hk⟩ := h1 i _ (own ++ S) (.new hs.low hs.high)
      refine ⟨r', i', S', _, .recurNone hq hb, ?_⟩
      have := five h2
      have := hpos (N - 1)
      omega
  | skip s p =>
    have hco : Comp s ∧ Comp p := by cases hP.comp; exact ⟨by assumption, by assumption⟩
    have hneed : needs f c M t.length lo s + 1 < N := by
      rw [← hN]
      unfold needs
      rw [show (Prog.skip s p).lead f c = max (s.lead f c) (p.lead f c) from by rw [Prog.lead],
        show (Prog.skip s p).weight f = s.weight f + p.weight f + 1 from by rw [Prog.weight]]
      have h1 := Prog.weight_pos (f := f) p
      have h2 := Nat.mul_le_mul_left (M + 1) (Nat.le_max_left (s.lead f c) (p.lead f c))
      omega
    obtain ⟨h1, h2⟩ := hin .skipped hlo
    refine (takesFrom_skip
      (x := fun b => (t.length + B + 1) * (2 * B + 5) ^ needs f c M t.length b s)
      (y := fun b => (t.length + B + 1) * (2 * B + 5) ^ (needs f c M t.length b s + 1))
      hE.comp hE.eats hco.1 hco.2 hP.sound.1
      (fun b hb hbl => from' hb (.skipper (Nat.le_refl _)) hbl) h1 ?_ ?_).mono ?_
    · intro b hbl
      have := five (Nat.lt_add_one (needs f c M t.length b s))
      have := hpos (needs f c M t.length b s)
      omega
    · intro b b' hbb hbl
      have := five (Nat.lt_add_one (needs f c M t.length b s))
      have := five (show needs f c M t.length b' s + 1 < needs f c M t.length b s + 1 from
        Nat.succ_lt_succ (needs_drop (f := f) (c := c) (M := M) s hbb hbl))
      have := hpos (needs f c M t.length b s)
      omega
    · have := five hneed
      have := five h2
      have := hpos (N - 1)
      omega

/-- Patterns that meet the hypotheses of C38. -/
theorem ends_exp (henv : env.LoopsEat c) (hleft : WellFounded (LeftCalls env c)) {ids : List Nat}
    (hids : ∀ id, env id ≠ none → id ∈ ids) {p : Pat} (hloops : p.loopsEat c = true)
    (hset : ∀ a ∈ p.refs, env a ≠ none) :
    ∃ K C, ∀ t, EndsBy env t (topParser p) (fresh (topParser p)) 0
      (List.replicate (marks (topParser p)) 0) (K * C ^ t.length) := by
  obtain ⟨f, hf⟩ := exists_potential hleft
  obtain ⟨S, M, B, hp, hM⟩ := exists_bulk (Prog.weight f) Prog.bulk hids p
  have hE : SteadyEnv env c f S M B :=
    ⟨henv.comp, henv.eats, hf, fun id q sk hq hk hs => hM id q sk hq hk hs,
      fun id q sk hq hs he => elabP_sound q sk _ ⟨hs, he, henv.loops id q hq, henv.set id q hq⟩⟩
  have hP : Steady env c f S M B (topParser p) :=
    ⟨hp.1, hp.2, comp_loops c p .fail hloops, elabP_sound p _ _ ⟨trivial, rfl, hloops, hset⟩⟩
  refine ⟨(B + 1) * (2 * B + 5) ^ ((topParser p).weight f + (M + 1) * (topParser p).lead f c),
    2 * (2 * B + 5) ^ ((M + 1) * (M + 1)), fun t => ?_⟩
  have h := takesFrom_exp (t := t) hE _ 0 (topParser p) rfl hP (Nat.zero_le _) 0 _ []
    (.new (Nat.le_refl _) (Nat.zero_le _))
  rw [List.append_nil] at h
  refine h.mono ?_
  unfold needs
  rw [Nat.pow_add (2 * B + 5), Nat.pow_mul (2 * B + 5), Nat.mul_pow, Nat.sub_zero]
  have h1 : t.length + B + 1 ≤ (B + 1) * 2 ^ t.length := by
    have h2 : t.length + 1 ≤ 2 ^ t.length := Nat.lt_two_pow_self
    have h3 := Nat.mul_le_mul_left (B + 1) h2
    have h4 : (B + 1) * (t.length + 1) = B * t.length + t.length + B + 1 := by
      rw [Nat.mul_add, Nat.add_mul]; omega
    omega
  have h5 := Nat.mul_le_mul_right ((2 * B + 5) ^ ((topParser p).weight f + (M + 1) * (topParser p).lead f c) *
    ((2 * B + 5) ^ ((M + 1) * (M + 1))) ^ t.length) h1
  refine Nat.le_trans h5 (Nat.le_of_eq ?_)
  ac_rfl

end
end Abu
