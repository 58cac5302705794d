import Verif.Proofs.GivesSkipLists
/-
The values a grammar computes under a skipper: the parser computes what the specification says.
-/
namespace Abu

/-- Nothing stale is left behind. -/
def Pat.Clear (p : Pat) : Prop := p.tidy true .none .none false .none .none = true

theorem clear {p : Pat} {c : Bool} (h : p.tidy true .none .none c .none .none = true) : p.Clear :=
  tidy_mono p (by simp) rfl rfl h

theorem clear_seq {ps : List Pat} (h : (Pat.seq ps).Clear) : ∀ p ∈ ps, p.Clear := by
  simp only [Pat.Clear, Pat.tidy, Bool.and_eq_true] at h
  exact tidySeq_all h.2

theorem clear_alt {ps : List Pat} (h : (Pat.alt ps).Clear) : ∀ p ∈ ps, p.Clear := by
  simp only [Pat.Clear, Pat.tidy, Bool.and_eq_true] at h
  exact fun p hp => clear (tidyAlt_all h.2 p hp)

theorem clear_except {op neg : Pat} (h : (Pat.except op neg).Clear) : op.Clear ∧ neg.Clear := by
  simp only [Pat.Clear, Pat.tidy, Bool.and_eq_true] at h
  exact ⟨clear h.1, clear h.2⟩

theorem clear_list {op sep : Pat} (h : (Pat.list op sep).Clear) : op.Clear ∧ sep.Clear := by
  simp only [Pat.Clear, Pat.tidy, Bool.and_eq_true] at h
  exact ⟨clear h.1, clear h.2⟩

section
variable {env : Env} {S : Eater}

theorem Sk.of_seq {ps ty u log t o log'} (h : SkSolo env S (.seq ps) ty u log t o log') (he : env.quiet)
    (hq : (Pat.seq ps).quiet = true) (ht : (Pat.seq ps).Clear) : Sk env S (.seq ps) ty u log t o log' :=
  ⟨h, h.lift he hq ht (raw := fun _ => .seq (tupleSlots 0 ps) (elabPs S.K ⟨false, false, false, false⟩ ps))
    (fun c _ => by cases c <;> rfl) (fun _ => rfl) (.inl rfl)⟩

theorem Sk.of_rep {p mn mx ty u log t o log'} (h : SkSolo env S (.rep mn mx p) ty u log t o log') (he : env.quiet)
    (hq : (Pat.rep mn mx p).quiet = true) (ht : (Pat.rep mn mx p).Clear) : Sk env S (.rep mn mx p) ty u log t o log' :=
  ⟨h, h.lift he hq ht (raw := fun cs => .rep mn mx (elabP S.K ⟨true, mn != mx || mx == 0, cs, false⟩ p))
    (fun c _ => by cases c <;> rfl) (fun _ => rfl) (.inl rfl)⟩

theorem Sk.of_list {op sep ty u log t x log'} (h : SkSolo env S (.list op sep) ty u log t (some x) log') (he : env.quiet)
    (hq : (Pat.list op sep).quiet = true) (ht : (Pat.list op sep).Clear) : Sk env S (.list op sep) ty u log t (some x) log' :=
  ⟨h, h.lift he hq ht
    (raw := fun _ => .list (elabP S.K ⟨true, false, false, false⟩ op) (elabP S.K ⟨false, false, false, false⟩ sep))
    (fun c _ => by cases c <;> rfl) (fun _ => rfl) (.inr (by simp))⟩

theorem Sk.of_recur {id n ty u log t o log'} (h : SkSolo env S (.recur id n) ty u log t o log') (he : env.quiet)
    (hq : (Pat.recur id n).quiet = true) (ht : (Pat.recur id n).Clear) : Sk env S (.recur id n) ty u log t o log' :=
  ⟨h, h.lift he hq ht (raw := fun _ => .recur id S.K)
    (fun c _ => by cases c <;> rfl) (fun _ => rfl) (.inl rfl)⟩

theorem Sk.of_other {p ty u log t o log'} (h : SkSolo env S p ty u log t o log') (hs : p.single = false) :
    Sk env S p ty u log t o log' := ⟨h, fun _ h1 => by rw [hs] at h1; cases h1⟩

variable (he : env.quiet) (henv : env.tidy true .none .none)
include he henv

mutual
theorem GivesSk.sk {p ty u log t o log'} (h : GivesSk env S.set p ty u log t o log') (hq : p.quiet = true)
    (hp : p.Clear) : Sk env S p ty u log t o log' := by
  match h, hq, hp with
  | .token h1 h2, hq, hp =>
    have h3 := Gives.solo he henv.unskipped h2 hq (loose (tidy_unskipped _ hp))
    exact ⟨.token he henv.unskipped hq h1 h3, .token he henv.unskipped hq h1 h3⟩
  | .discard h1, hq, hp => exact .of_other (SkSolo.discard (GivesSkNil.sk h1 hq hp) hq he) rfl
  | .discardNo h1, hq, hp => exact .of_other (SkSolo.discardNo (GivesSkNil.sk h1 hq hp) hq he) rfl
  | .seq h1 h2 h3, hq, hp =>
    exact .of_seq (SkSolo.seq (GivesSkEach.sk h3 (quiets_mem hq) (clear_seq hp)) h1 h2 (quiets_mem hq) he) he hq hp
  | .seqNo h1 h2 h3, hq, hp =>
    exact .of_seq (SkSolo.seq (GivesSkEach.sk h3 (quiets_mem hq) (clear_seq hp)) h1 h2 (quiets_mem hq) he) he hq hp
  | .seqInto h1 h2 h3, hq, hp =>
    exact .of_seq (SkSolo.seqInto (GivesSkInto.sk h3 (quiets_mem hq) (clear_seq hp)) h1 h2 (quiets_mem hq) he) he hq hp
  | .seqIntoNo h1 h2 h3, hq, hp =>
    exact .of_seq (SkSolo.seqInto (GivesSkInto.sk h3 (quiets_mem hq) (clear_seq hp)) h1 h2 (quiets_mem hq) he) he hq hp
  | @GivesSk.alt _ _ ps q qs ty u log t log1 v rest log' h1 h2 h3, hq, hp =>
    have hq1 := quiets_mem hq
    have hp1 := clear_alt hp
    have hn := GivesSkNone.sk h2 (fun p hm => hq1 p (by simp [hm])) (fun p hm => hp1 p (by simp [hm]))
    have h4 := GivesSk.sk h3 (hq1 q (by simp)) (hp1 q (by simp))
    exact ⟨SkSolo.alt h1 hn h4.solo (fun p hm => hq1 p (by simp [hm])) he, SkItem.alt hn h4.item⟩
  | .altNo h1 h2 h3, hq, hp =>
    have hn := GivesSkNone.sk h3 (quiets_mem hq) (clear_alt hp)
    exact ⟨SkSolo.altNo h1 h2 hn (quiets_mem hq) he, SkItem.altNo h1 hn⟩
  | .repMax h1 h2 h3 h4 h5 h6 h7, hq, hp =>
    exact .of_rep (SkSolo.rep h1 h2 h3 (.inr h4) (GivesSkMany.sk h6 hq (clear (tidy_rep hp))) (.max h5 h7 rfl) _
      (by rw [if_pos (by omega)])) he hq hp
  | .rep h1 h2 h3 h4 h5 h6 h7 h8, hq, hp =>
    exact .of_rep (SkSolo.rep h1 h2 h3 h4 (GivesSkMany.sk h5 hq (clear (tidy_rep hp)))
      (.fails h7 (GivesSk.sk h8 hq (clear (tidy_rep hp))).item) _ (by rw [if_pos h6])) he hq hp
  | .repNo h1 h2 h3 h4 h5 h6 h7, hq, hp =>
    exact .of_rep (SkSolo.rep h1 h2 h3 h4 (GivesSkMany.sk h5 hq (clear (tidy_rep hp)))
      (.fails (by omega) (GivesSk.sk h7 hq (clear (tidy_rep hp))).item) _ (by rw [if_neg (by omega)])) he hq hp
  | .listNil h1 h2 h3 h4, hq, hp =>
    exact .of_list (SkSolo.listNil h1 h2 h3 (GivesSk.sk h4 (band_left hq) (clear_list hp).1).item) he hq hp
  | .listSep h1 h2 h3 h4 h5 h6 h7, hq, hp =>
    have hc := clear_list hp
    exact .of_list (SkSolo.list h1 h2 h3 (GivesSk.sk h4 (band_left hq) hc.1).item h5
      (GivesSkSep.sk h6 (band_left hq) (band_right hq) hc.1 hc.2)
      (.sep (GivesSkNil.sk h7 (band_right hq) hc.2)) (band_right hq) he) he hq hp
  | .listItem h1 h2 h3 h4 h5 h6 h7 h8, hq, hp =>
    have hc := clear_list hp
    exact .of_list (SkSolo.list h1 h2 h3 (GivesSk.sk h4 (band_left hq) hc.1).item h5
      (GivesSkSep.sk h6 (band_left hq) (band_right hq) hc.1 hc.2)
      (.item (GivesSkNil.sk h7 (band_right hq) hc.2) (GivesSk.sk h8 (band_left hq) hc.1).item) (band_right hq) he) he hq hp
  | .not h1 h2, hq, hp => exact .of_other (SkSolo.not (GivesSk.sk h2 hq hp).solo h1 hq he) rfl
  | .notNo h2, hq, hp => exact .of_other (SkSolo.notNo (GivesSk.sk h2 hq hp).solo) rfl
  | .except h1 h2, hq, hp =>
    have hc := clear_except hp
    have h3 := GivesSkNil.sk h1 (band_right hq) hc.2
    have h4 := GivesSk.sk h2 (band_left hq) hc.1
    exact ⟨SkSolo.except h3 h4.solo (band_right hq) he, SkItem.except h3 h4.item (band_right hq) he⟩
  | .exceptNo h1, hq, hp =>
    have h3 := GivesSkNil.sk h1 (band_right hq) (clear_except hp).2
    exact ⟨SkSolo.exceptNo h3 (band_right hq) he, SkItem.exceptNo h3 (band_right hq) he⟩
  | .bindDst h1, hq, hp =>
    have h2 := (GivesSk.sk h1 hq hp).solo
    exact ⟨h2.bindDst, SkItem.bindDst h2 hq he⟩
  | .recur h1 h2, hq, hp => exact .of_recur (SkSolo.recur h1 henv (GivesSk.sk h2 (he _ _ h1) (henv _ _ h1)).solo) he hq hp
  | .construct h1 h2, hq, hp => exact .of_other (SkSolo.construct (GivesSk.sk h1 hq hp).solo h2 hq he) rfl
  | .constructNo h1, hq, hp => exact .of_other (SkSolo.constructNo (GivesSk.sk h1 hq hp).solo hq he) rfl
  | .action h1 h2 h3 h4 h5, hq, hp =>
    have h6 := GivesSkArg.sk h3 (band_right hq) hp
    exact ⟨SkSolo.action h6 h1 h2 h4 h5, SkItem.action h6 h1 h2 h4 h5⟩
  | .actionVoid h1 h2 h3 h4, hq, hp =>
    have h6 := GivesSkArg.sk h3 (band_right hq) hp
    exact ⟨SkSolo.actionVoid h6 h1 h2 h4, fun _ hs => by simp [Pat.single, Pat.assigns, h2] at hs⟩
  | .actionNo h3, hq, hp =>
    have h6 := GivesSkArg.sk h3 (band_right hq) hp
    exact ⟨SkSolo.actionNo h6, SkItem.actionNo h6⟩
theorem GivesSkNil.sk {p log t o log'} (h : GivesSkNil env S.set p log t o log') (hq : p.quiet = true)
    (hp : p.Clear) : SkNil env S p log t o log' := by
  match h, hq, hp with
  | .token h1 h2, hq, hp =>
    exact .token he henv.unskipped hq h1 (GivesNil.solo he henv.unskipped h2 hq (loose (tidy_unskipped _ hp)))
  | .discard h1, hq, hp => exact SkNil.discard (GivesSkNil.sk h1 hq hp)
  | .recur h1 h2, hq, hp => exact SkNil.recur h1 henv (GivesSkNil.sk h2 (he _ _ h1) (henv _ _ h1))
  | .seq h1 h2, hq, hp => exact SkNil.seq (GivesSkNils.sk h2 (quiets_mem hq) (clear_seq hp)) h1
  | @GivesSkNil.alt _ _ ps q qs log t log1 rest log' h1 h2, hq, hp =>
    have hq1 := quiets_mem hq
    have hp1 := clear_alt hp
    exact SkNil.alt (GivesSkNilNone.sk h1 (fun p hm => hq1 p (by simp [hm])) (fun p hm => hp1 p (by simp [hm])))
      (GivesSkNil.sk h2 (hq1 q (by simp)) (hp1 q (by simp)))
  | .altNo h1 h2, hq, hp => exact SkNil.altNo h1 (GivesSkNilNone.sk h2 (quiets_mem hq) (clear_alt hp))
  | .action h1 h2 h3, hq, hp => exact SkNil.action (GivesSkArg.sk h2 (band_right hq) hp) h1 h3
  | .actionNo h1, hq, hp => exact SkNil.actionNo (GivesSkArg.sk h1 (band_right hq) hp)
theorem GivesSkNils.sk {ps log t o log'} (h : GivesSkNils env S.set ps log t o log')
    (hq : ∀ p ∈ ps, p.quiet = true) (hp : ∀ p ∈ ps, p.Clear) : SkNils env S ps log t o log' := by
  match h, hq, hp with
  | .nil, hq, hp => exact .nil
  | .cons h1 h2, hq, hp =>
    exact .cons (GivesSkNil.sk h1 (hq _ (by simp)) (hp _ (by simp)))
      (GivesSkNils.sk h2 (fun p hm => hq p (by simp [hm])) fun p hm => hp p (by simp [hm]))
  | .consNo h1, hq, hp => exact .consNo (GivesSkNil.sk h1 (hq _ (by simp)) (hp _ (by simp)))
theorem GivesSkNilNone.sk {t ps log log'} (h : GivesSkNilNone env S.set t ps log log')
    (hq : ∀ p ∈ ps, p.quiet = true) (hp : ∀ p ∈ ps, p.Clear) : SkNilNone env S t ps log log' := by
  match h, hq, hp with
  | .nil, hq, hp => exact .nil
  | .cons h1 h2, hq, hp =>
    exact .cons (GivesSkNil.sk h1 (hq _ (by simp)) (hp _ (by simp)))
      (GivesSkNilNone.sk h2 (fun p hm => hq p (by simp [hm])) fun p hm => hp p (by simp [hm]))
theorem GivesSkArg.sk {p ty log t o log'} (h : GivesSkArg env S.set p ty log t o log') (hq : p.quiet = true)
    (hp : p.Clear) : SkArg env S p ty log t o log' := by
  match h, hq, hp with
  | .nil h1, hq, hp => exact SkArg.nil (GivesSkNil.sk h1 hq hp) (by rintro _ _ ⟨⟩; rfl) hq he
  | .nilNo h1, hq, hp => exact SkArg.nil (o := none) (GivesSkNil.sk h1 hq hp) (by simp) hq he
  | .value h1 h2, hq, hp => exact SkArg.value (GivesSk.sk h2 hq hp).solo h1 hq he
theorem GivesSkEach.sk {ps ts vs log t o log'} (h : GivesSkEach env S.set ps ts vs log t o log')
    (hq : ∀ p ∈ ps, p.quiet = true) (hp : ∀ p ∈ ps, p.Clear) : SkEach env S ps ts vs log t o log' := by
  match h, hq, hp with
  | .nil, hq, hp => exact .nil
  | .value h1 h2 h3, hq, hp =>
    exact .value h1 (GivesSk.sk h2 (hq _ (by simp)) (hp _ (by simp))).solo
      (GivesSkEach.sk h3 (fun p hm => hq p (by simp [hm])) fun p hm => hp p (by simp [hm]))
  | .valueNo h1 h2, hq, hp => exact .valueNo h1 (GivesSk.sk h2 (hq _ (by simp)) (hp _ (by simp))).solo
  | .laterNo h1 h2 h3, hq, hp =>
    exact .laterNo h1 (GivesSk.sk h2 (hq _ (by simp)) (hp _ (by simp))).solo
      (GivesSkEach.sk h3 (fun p hm => hq p (by simp [hm])) fun p hm => hp p (by simp [hm]))
  | .ignore h1 h2 h3, hq, hp =>
    exact .ignore h1 (GivesSkNil.sk h2 (hq _ (by simp)) (hp _ (by simp)))
      (GivesSkEach.sk h3 (fun p hm => hq p (by simp [hm])) fun p hm => hp p (by simp [hm]))
  | .ignoreNo h1 h2, hq, hp => exact .ignoreNo h1 (GivesSkNil.sk h2 (hq _ (by simp)) (hp _ (by simp)))
theorem GivesSkInto.sk {ty ps u log t o log'} (h : GivesSkInto env S.set ty ps u log t o log')
    (hq : ∀ p ∈ ps, p.quiet = true) (hp : ∀ p ∈ ps, p.Clear) : SkInto env S ty ps u log t o log' := by
  match h, hq, hp with
  | .nil, hq, hp => exact .nil
  | .value h1 h2 h3, hq, hp =>
    exact .value h1 (GivesSk.sk h2 (hq _ (by simp)) (hp _ (by simp))).solo
      (GivesSkInto.sk h3 (fun p hm => hq p (by simp [hm])) fun p hm => hp p (by simp [hm]))
  | .valueNo h1 h2, hq, hp => exact .valueNo h1 (GivesSk.sk h2 (hq _ (by simp)) (hp _ (by simp))).solo
  | .ignore h1 h2 h3, hq, hp =>
    exact .ignore h1 (GivesSkNil.sk h2 (hq _ (by simp)) (hp _ (by simp)))
      (GivesSkInto.sk h3 (fun p hm => hq p (by simp [hm])) fun p hm => hp p (by simp [hm]))
  | .ignoreNo h1 h2, hq, hp => exact .ignoreNo h1 (GivesSkNil.sk h2 (hq _ (by simp)) (hp _ (by simp)))
theorem GivesSkNone.sk {ty u t ps log log'} (h : GivesSkNone env S.set ty u t ps log log')
    (hq : ∀ p ∈ ps, p.quiet = true) (hp : ∀ p ∈ ps, p.Clear) : SkNone env S ty u t ps log log' := by
  match h, hq, hp with
  | .nil, hq, hp => exact .nil
  | .cons h1 h2, hq, hp =>
    exact .cons (GivesSk.sk h1 (hq _ (by simp)) (hp _ (by simp)))
      (GivesSkNone.sk h2 (fun p hm => hq p (by simp [hm])) fun p hm => hp p (by simp [hm]))
theorem GivesSkMany.sk {p ty log t vs log' rest} (h : GivesSkMany env S.set p ty log t vs log' rest)
    (hq : p.quiet = true) (hp : p.Clear) : SkMany env S p ty log t vs log' rest := by
  match h, hq, hp with
  | .nil, hq, hp => exact .nil
  | .cons h1 h2 h3, hq, hp => exact .cons (GivesSk.sk h1 hq hp).item h2 (GivesSkMany.sk h3 hq hp)
theorem GivesSkSep.sk {op sep ty log t vs log' rest} (h : GivesSkSep env S.set op sep ty log t vs log' rest)
    (hq : op.quiet = true) (hqs : sep.quiet = true) (hp : op.Clear) (hps : sep.Clear) :
    SkSep env S op sep ty log t vs log' rest := by
  match h, hq, hqs, hp, hps with
  | .nil, hq, hqs, hp, hps => exact .nil
  | .cons h1 h2 h3 h4, hq, hqs, hp, hps =>
    exact .cons (GivesSkNil.sk h1 hqs hps) (GivesSk.sk h2 hq hp).item h3 (GivesSkSep.sk h4 hq hqs hp hps)
end

end
end Abu
