import Verif.Proofs.Recognise
import Verif.Proofs.PegShift
import Verif.Spec.Recognition
/-
From `Recognises` to the grammar, and from the grammar to `Yields`.
-/
namespace Abu

/-! ### Monotonicity of the criterion -/

theorem band_mono {a b a' b' : Bool} (h : (a && b) = true) (ha : a = true → a' = true)
    (hb : b = true → b' = true) : (a' && b') = true := by
  cases a <;> cases b <;> simp_all

theorem band_mono' {a b a' b' : Bool} (ha : a = true → a' = true)
    (hb : b = true → b' = true) (h : (a && b) = true) : (a' && b') = true := band_mono h ha hb

theorem bor_mono' {a b a' b' : Bool} (ha : a = true → a' = true)
    (hb : b = true → b' = true) (h : (a || b) = true) : (a' || b') = true := by
  cases a <;> cases b <;> simp_all

theorem bnot_mono {a a' : Bool} (ha : a' = true → a = true) : (!a) = true → (!a') = true := by
  cases a <;> cases a' <;> simp_all

theorem noMark_mono : ∀ (p : Pat) {c c' : Bool}, (c' = true → c = true) →
    p.noMark c = true → p.noMark c' = true
  | .strLit _, c, c', h => bnot_mono h
  | .symbol _, c, c', h => bnot_mono h
  | .int .., c, c', h => bor_mono' (bnot_mono h) id
  | .uint .., c, c', h => bor_mono' (bnot_mono h) id
  | .seq (p :: _), c, c', h => band_mono' (bnot_mono h) id
  | .seq [], c, c', h => id
  | .alt (p :: _), c, c', h => id
  | .alt [], c, c', h => id
  | .rep .., c, c', h => band_mono' (bnot_mono h) id
  | .opt _, c, c', h => id
  | .not _, c, c', h => id
  | .list .., c, c', h => id
  | .discard p, c, c', h => noMark_mono p h
  | .lexeme p, c, c', h => noMark_mono p h
  | .bindDst p, c, c', h => noMark_mono p h
  | .construct _ p, c, c', h => noMark_mono p h
  | .action _ p, c, c', h => noMark_mono p h
  | .withSkipper .., c, c', h => id
  | .except .., c, c', h => band_mono' (bnot_mono h) id
  | .recur .., c, c', h => bnot_mono h
  | .char _, c, c', h => id
  | .charSymbol _, c, c', h => id
  | .eoi, c, c', h => id
  | .pass, c, c', h => id
  | .fail, c, c', h => id

theorem Stale.later_mono {a b : Stale} (h : a.le b = true) : a.later.le b.later = true := by
  cases a <;> cases b <;> first | rfl | cases h

theorem Stale.meet_mono {a b a' b' : Stale} (h : a.le b = true) (h' : a'.le b' = true) :
    (a.meet a').le (b.meet b') = true := by
  cases a <;> cases b <;> cases a' <;> cases b' <;> first | rfl | cases h; done | cases h'; done

theorem Stale.under_mono {a b : Stale} {c c' : Bool} (h : a.le b = true) (hc : c' = true → c = true) :
    (a.under c).le (b.under c') = true := by
  cases a <;> cases b <;> cases c <;> cases c' <;>
    first | rfl | cases h; done | cases hc rfl

theorem Stale.ite_mono {P : Prop} [Decidable P] {a b a' b' : Stale} (h : a.le b = true)
    (h' : a'.le b' = true) : (if P then a else a').le (if P then b else b') = true := by
  split
  · exact h
  · exact h'

theorem Stale.le_any (a : Stale) : a.le .any = true := by cases a <;> rfl

open Stale in
mutual
theorem tidy_mono : ∀ (p : Pat) {sk : Bool} {els elf : Stale} {c : Bool} {ls lf : Stale} {c' : Bool}
    {ls' lf' : Stale}, (c' = true → c = true) → ls.le ls' = true → lf.le lf' = true →
    p.tidy sk els elf c ls lf = true → p.tidy sk els elf c' ls' lf' = true
  | .charSymbol _, sk, els, elf, c, ls, lf, c', ls', lf', hc, hs, hf => id
  | .int .., sk, els, elf, c, ls, lf, c', ls', lf', hc, hs, hf =>
    band_mono' id (bor_mono' (bnot_mono hc) id)
  | .uint .., sk, els, elf, c, ls, lf, c', ls', lf', hc, hs, hf => id
  | .seq ps, sk, els, elf, c, ls, lf, c', ls', lf', hc, hs, hf =>
    band_mono' id (tidySeq_mono ps hs (under_mono hf hc))
  | .alt ps, sk, els, elf, c, ls, lf, c', ls', lf', hc, hs, hf =>
    band_mono' id (tidyAlt_mono ps hs hf)
  | .rep _ _ p, sk, els, elf, c, ls, lf, c', ls', lf', hc, hs, hf =>
    tidy_mono p id (ite_mono (later_mono hs) (later_mono (meet_mono hs (under_mono hf hc))))
      (ite_mono (later_mono hs) (later_mono (meet_mono hs (under_mono hf hc))))
  | .opt p, sk, els, elf, c, ls, lf, c', ls', lf', hc, hs, hf =>
    band_mono' (fun h => le_trans h hs) (tidy_mono p id hs rfl)
  | .not p, sk, els, elf, c, ls, lf, c', ls', lf', hc, hs, hf =>
    tidy_mono p id (meet_mono hf rfl) (meet_mono hs rfl)
  | .discard p, sk, els, elf, c, ls, lf, c', ls', lf', hc, hs, hf => tidy_mono p hc hs hf
  | .lexeme p, sk, els, elf, c, ls, lf, c', ls', lf', hc, hs, hf =>
    band_mono' (bor_mono' id (noMark_mono p (band_mono' hc id))) (tidy_mono p hc hs hf)
  | .bindDst p, sk, els, elf, c, ls, lf, c', ls', lf', hc, hs, hf => tidy_mono p hc hs hf
  | .construct _ p, sk, els, elf, c, ls, lf, c', ls', lf', hc, hs, hf => tidy_mono p hc hs hf
  | .action _ p, sk, els, elf, c, ls, lf, c', ls', lf', hc, hs, hf => tidy_mono p hc hs hf
  | .except op neg, sk, els, elf, c, ls, lf, c', ls', lf', hc, hs, hf =>
    band_mono' (tidy_mono op id hs (under_mono hf hc))
      (tidy_mono neg id (under_mono hf hc) (meet_mono hs (under_mono hf hc)))
  | .list op sep, sk, els, elf, c, ls, lf, c', ls', lf', hc, hs, hf =>
    band_mono' (tidy_mono op id (later_mono hs) rfl)
      (tidy_mono sep id (meet_mono (later_mono hs) rfl) (meet_mono (later_mono hs) rfl))
  | .withSkipper .., sk, els, elf, c, ls, lf, c', ls', lf', hc, hs, hf => id
  | .recur .., sk, els, elf, c, ls, lf, c', ls', lf', hc, hs, hf =>
    band_mono' (fun h => le_trans h hs) (fun h => le_trans h (under_mono hf hc))
  | .char _, sk, els, elf, c, ls, lf, c', ls', lf', hc, hs, hf => id
  | .strLit _, sk, els, elf, c, ls, lf, c', ls', lf', hc, hs, hf => id
  | .symbol _, sk, els, elf, c, ls, lf, c', ls', lf', hc, hs, hf => id
  | .eoi, sk, els, elf, c, ls, lf, c', ls', lf', hc, hs, hf => id
  | .pass, sk, els, elf, c, ls, lf, c', ls', lf', hc, hs, hf => id
  | .fail, sk, els, elf, c, ls, lf, c', ls', lf', hc, hs, hf => id
theorem tidySeq_mono : ∀ (ps : List Pat) {sk : Bool}
    {els elf ls lf ls' lf' : Stale}, ls.le ls' = true → lf.le lf' = true →
    Pat.tidySeq sk els elf ls lf ps = true → Pat.tidySeq sk els elf ls' lf' ps = true
  | [], sk, els, elf, ls, lf, ls', lf', hs, hf => id
  | p :: ps, sk, els, elf, ls, lf, ls', lf', hs, hf =>
    band_mono' (tidy_mono p id (ite_mono hs (meet_mono hs hf)) hf)
      (tidySeq_mono ps (later_mono hs) (later_mono hf))
theorem tidyAlt_mono : ∀ (ps : List Pat) {sk : Bool}
    {els elf ls lf ls' lf' : Stale}, ls.le ls' = true → lf.le lf' = true →
    Pat.tidyAlt sk els elf ls lf ps = true → Pat.tidyAlt sk els elf ls' lf' ps = true
  | [], sk, els, elf, ls, lf, ls', lf', hs, hf => id
  | p :: ps, sk, els, elf, ls, lf, ls', lf', hs, hf =>
    band_mono' (tidy_mono p id hs (ite_mono hf (meet_mono hs hf))) (tidyAlt_mono ps hs hf)
end

/-- The weakest requirement. -/
def Pat.Loose (els elf : Stale) (p : Pat) : Prop := p.tidy false els elf false .any .any = true

theorem loose {els elf c ls lf} {p : Pat} (h : p.tidy false els elf c ls lf = true) :
    p.Loose els elf := tidy_mono p (by simp) (Stale.le_any _) (Stale.le_any _) h

theorem loose_seq {els elf ls lf} : ∀ {ps : List Pat}, Pat.tidySeq false els elf ls lf ps = true →
    ∀ p ∈ ps, p.Loose els elf
  | [], _, p, hp => by cases hp
  | q :: ps, h, p, hp => by
    rcases List.mem_cons.1 hp with rfl | hp
    · exact loose (band_left h)
    · exact loose_seq (band_right h) p hp

theorem loose_alt {els elf ls lf} : ∀ {ps : List Pat}, Pat.tidyAlt false els elf ls lf ps = true →
    ∀ p ∈ ps, p.Loose els elf
  | [], _, p, hp => by cases hp
  | q :: ps, h, p, hp => by
    rcases List.mem_cons.1 hp with rfl | hp
    · exact loose (band_left h)
    · exact loose_alt (band_right h) p hp

/-! ### Between parses and the grammar -/

theorem Err.ofDestination_of {e : Err} (h : e.ofMem = true) : e.ofDestination := by
  cases e <;> simp_all [Err.ofMem, Err.ofDestination]

section
variable {env : Env} {els elf : Stale} {p : Pat} {t : List Ch} {o : Option (List Ch)}

theorem recognises_peg (henv : env.tidy false els elf) (hp : p.Loose els elf)
    (h : Recognises env p t o) : PegRest env p t o := by
  obtain ⟨dst, m, r, m', rest, h, hf⟩ := h
  obtain ⟨o', ho, ha⟩ := ghost_peg henv hp h.ghost_id
  cases ha with
  | ok => cases hf; exact ⟨_, ho, rfl⟩
  | no => cases hf; exact ho

theorem peg_yields (henv : env.tidy false els elf) (hp : p.Loose els elf)
    (h : PegRest env p t o) : Yields env p t o := by
  have : ∃ r rest, GhostParses env (topParser p) t r rest ∧ Fits o r rest := by
    cases o with
    | none =>
      obtain ⟨r, rest, hg, ha⟩ := peg_ghost henv hp h
      cases ha; exact ⟨_, _, hg, .no⟩
    | some rest =>
      obtain ⟨j, h, rfl⟩ := h
      obtain ⟨r, rest, hg, ha⟩ := peg_ghost henv hp h
      cases ha; exact ⟨_, _, hg, .ok⟩
  obtain ⟨r, rest, hg, hf⟩ := this
  intro dst m
  rcases hg.real_id dst m with ⟨m', h⟩ | ⟨e, he, h⟩
  · exact .inl ⟨r, m', rest, h, hf⟩
  · exact .inr ⟨e, Err.ofDestination_of he, h⟩

end

end Abu
