import Verif.Proofs.CalculatorPrint
import Verif.Proofs.Readme
/-
Lists of numbers as they are written.
-/
namespace Abu

theorem written_numeral (n : Int) : Numeral n (written n) := by
  obtain ⟨rs, h1, h2⟩ := decimal_positional n.natAbs
  by_cases h : n < 0
  · exact ⟨[45], true, _, rs, .minus, h1, decimal_nonempty _, by simp [withSign, h2]; omega, by simp [written, h]⟩
  · exact ⟨[], false, _, rs, .none, h1, decimal_nonempty _, by simp [withSign, h2]; omega, by simp [written, h]⟩

theorem no_spaces : Spaces [] := fun _ h => by cases h

theorem commaSeparated_listed (n : Int) (ns : List Int) : Listed (n :: ns) (commaSeparated (n :: ns)) := by
  induction ns generalizing n with
  | nil => exact .one (w := []) no_spaces (written_numeral n)
  | cons n' ns ih =>
    have := Listed.more (w := []) (w' := []) no_spaces (written_numeral n) no_spaces (ih n')
    simpa [commaSeparated] using this

theorem bracketed_reads (ns : List Int) : Bracketed ns (bracketed ns) := by
  cases ns with
  | nil => exact .none (w := []) (w' := []) no_spaces no_spaces
  | cons n ns =>
    have := Bracketed.some (w := []) (w' := []) no_spaces (commaSeparated_listed n ns) no_spaces
    simpa [bracketed] using this

theorem written_chars (n : Int) : ∀ c ∈ written n, IsChar c := by
  intro c hc
  obtain ⟨sg, neg, ds, rs, h1, h2, _, _, e⟩ := written_numeral n
  rw [e] at hc
  rcases List.mem_append.1 hc with h | h
  · cases h1 <;> simp at h <;> subst h <;> decide
  · have := h2.range c h
    unfold IsChar
    omega

theorem bracketed_chars (ns : List Int) : ∀ c ∈ bracketed ns, IsChar c := by
  have key : ∀ c ∈ commaSeparated ns, IsChar c := by
    induction ns with
    | nil => simp [commaSeparated]
    | cons n ns ih =>
      cases ns with
      | nil => simpa [commaSeparated] using written_chars n
      | cons n' ns =>
        intro c hc
        simp only [commaSeparated, List.mem_append, List.mem_cons] at hc
        rcases hc with h | rfl | h
        · exact written_chars n c h
        · decide
        · exact ih c (by simpa [commaSeparated] using h)
  intro c hc
  simp only [bracketed, List.mem_cons, List.mem_append, List.not_mem_nil, or_false] at hc
  rcases hc with (rfl | h) | rfl
  · decide
  · exact key c h
  · decide

theorem IntButLeast.fits {n : Int} (h : IntButLeast n) : fitsInt n.natAbs = true := by
  unfold IntButLeast at h
  simp only [fitsInt, Bool.and_eq_true, decide_eq_true_eq]
  omega

end Abu
