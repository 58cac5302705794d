import Verif.Proofs.CalculatorPrint
import Verif.Props.CalculatorMain
/-
C86: round trip of arithmetic expressions.
-/
namespace Abu

/-- C86: a printed expression is read back as a whole and with its value. -/
theorem C86_round_trip (e : Arith) (v : Int) (hv : e.value = some v) (m : Mem) (o : Nat) (ho : o < m.objs.length) :
    ∃ m', Answers calcEnv calculator (.at o [] .int) m (e.print .sum) (.ok (.SUCCESS, m', [])) ∧
      m'.objs[o]? = some (.num v) ∧
      ∀ o', o' < m.objs.length → o' ≠ o → m'.objs[o']? = m.objs[o']? :=
  C43_whole_text e _ v (e.print_chars _) (e.print_written _) hv m o ho

/-- C86: if it has no value, the behaviour is undefined. -/
theorem C86_no_value (e : Arith) (hv : e.value = none) (m : Mem) (o : Nat) (ho : o < m.objs.length) :
    ∃ err, (err = .ubOverflow ∨ err = .ubUninit) ∧
      Answers calcEnv calculator (.at o [] .int) m (e.print .sum) (.error err) :=
  C43_whole_undefined e _ (e.print_chars _) (e.print_written _) hv m o ho

/-- C86: different expressions are printed differently. -/
theorem C86_injective (e e' : Arith) (h : e.print .sum = e'.print .sum) : e = e' :=
  C43_one_expression e e' _ (e.print_written _) (by rw [h]; exact e'.print_written _)

/-- C86: there is no shorter way to write an expression; in particular none with fewer parentheses but as
many other characters. -/
theorem C86_shortest (e : Arith) (s : List Ch) (h : Written .sum e s) : (e.print .sum).length ≤ s.length :=
  h.print_shortest

/-- C86: the program prints the values of the expressions, one per line, and ends. -/
theorem C86_program (es : List (Arith × Int)) (h : ∀ p ∈ es, p.1.value = some p.2) :
    CalcMain ((es.map fun p => p.1.print .sum ++ [10]).flatten) (dialogue (es.map fun p => .value p.2)) none := by
  induction es with
  | nil => exact .quit rfl
  | cons p es ih =>
    have h1 := C85_expression p.1 (p.1.print .sum) p.2 (p.1.print_chars _) (p.1.print_line _) (p.1.print_written _)
      (h p (by simp)) _ _ _ (ih fun q hq => h q (by simp [hq]))
    simpa [dialogue] using h1

/-! Examples: `8-2*3/(1-3)`, and `8-(2-3)`, where the parentheses are needed, as opposed to `8-2-3`. -/

example : exSum.print .sum = [56, 45, 50, 42, 51, 47, 40, 49, 45, 51, 41] := by
  simp [exSum, Arith.print, Op.level, Prec.admits, Prec.inner, Op.symbol, written, decimal]
example : (Arith.bin .sub (.num 8) (.bin .sub (.num 2) (.num 3))).print .sum = [56, 45, 40, 50, 45, 51, 41] := by
  simp [Arith.print, Op.level, Prec.admits, Prec.inner, Op.symbol, written, decimal]
example : (Arith.bin .sub (.bin .sub (.num 8) (.num 2)) (.num 3)).print .sum = [56, 45, 50, 45, 51] := by
  simp [Arith.print, Op.level, Prec.admits, Prec.inner, Op.symbol, written, decimal]
example : exSum.print .sum ≠ (Arith.num 11).print .sum :=
  fun h => by have := C86_injective _ _ h; simp [exSum] at this
/-- `8-(2-3)` cannot be written with less than seven characters. -/
example (s : List Ch) (h : Written .sum (.bin .sub (.num 8) (.bin .sub (.num 2) (.num 3))) s) : 7 ≤ s.length := by
  have := C86_shortest _ s h
  simpa [Arith.print, Op.level, Prec.admits, Prec.inner, Op.symbol, written, decimal] using this
example : ∃ m', Answers calcEnv calculator (.at 0 [] .int) ⟨[.num 7], []⟩ (exSum.print .sum)
    (.ok (.SUCCESS, m', [])) ∧ m'.objs[0]? = some (.num 11) := by
  obtain ⟨m', h1, h2, _⟩ := C86_round_trip exSum 11 (by decide) ⟨[.num 7], []⟩ 0 (by decide)
  exact ⟨m', h1, h2⟩
example : ∃ err, Answers calcEnv calculator (.at 0 [] .int) ⟨[.num 7], []⟩ (exBad.print .sum) (.error err) :=
  (C86_no_value exBad (by decide) ⟨[.num 7], []⟩ 0 (by decide)).imp fun _ h => h.2
example : CalcMain (exSum.print .sum ++ [10] ++ (exSum.print .sum ++ [10]))
    [.prompt, .value 11, .prompt, .value 11, .prompt] none := by
  have := C86_program [(exSum, 11), (exSum, 11)] (by decide)
  simpa [dialogue] using this

end Abu
