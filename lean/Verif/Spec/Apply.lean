import Verif.Model.Api
/-
One use of a parser in the middle of a parse.
-/
namespace Abu

/-- The iterators of the data source are within the text. -/
def SingleForward.Valid (s : SingleForward) : Prop :=
  s.endd = s.text.length ∧ s.current ≤ s.text.length ∧ ∀ p ∈ s.stack, p ≤ s.text.length

/-- An object of the parser class `P` is constructed and its `consume` is called: it returns `r`
and leaves the data source and the memory as in `w'`. -/
def Applies (env : Env) (P : Prog) (dst bnd : Ref) (w : World SingleForward Mem) (r : Res)
    (w' : World SingleForward Mem) : Prop :=
  ∃ st w1 st', construct P dst bnd w = .ok (st, w1) ∧
    Evals env P dst bnd st w1 (.ok ((r, st'), w'))

/-- Consume calls on a parser object until one returns something else than `PARTIAL`, which is
`r`. Whatever the user does to the data source in between. -/
inductive Resumes {σ : Type} [DataSource σ] (env : Env) (P : Prog) (dst bnd : Ref) :
    PState → World σ Mem → Res → World σ Mem → Prop
  | last {st w r st' w'} : Evals env P dst bnd st w (.ok ((r, st'), w')) → r ≠ .PARTIAL →
      Resumes env P dst bnd st w r w'
  | more {st w st' w' ds r w''} : Evals env P dst bnd st w (.ok ((.PARTIAL, st'), w')) →
      Resumes env P dst bnd st' ⟨ds, w'.mem⟩ r w'' → Resumes env P dst bnd st w r w''

/-- An object of the parser class `P` is constructed and used until it returns something else than
`PARTIAL`, which is `r`. -/
def Used {σ : Type} [DataSource σ] (env : Env) (P : Prog) (dst bnd : Ref) (w : World σ Mem)
    (r : Res) (w' : World σ Mem) : Prop :=
  ∃ st w1 ds, construct P dst bnd w = .ok (st, w1) ∧ Resumes env P dst bnd st ⟨ds, w1.mem⟩ r w'

/-- Consume calls on a parser object that all return `PARTIAL`. -/
inductive Waits {σ : Type} [DataSource σ] (env : Env) (P : Prog) (dst bnd : Ref) :
    PState → World σ Mem → World σ Mem → Prop
  | none {st w} : Waits env P dst bnd st w w
  | more {st w st' w' ds w''} : Evals env P dst bnd st w (.ok ((.PARTIAL, st'), w')) →
      Waits env P dst bnd st' ⟨ds, w'.mem⟩ w'' → Waits env P dst bnd st w w''

/-- An object of the parser class `P` has been constructed and used any number of times, always
with result `PARTIAL`: it is suspended. -/
def Suspended {σ : Type} [DataSource σ] (env : Env) (P : Prog) (dst bnd : Ref) (w : World σ Mem)
    (w' : World σ Mem) : Prop :=
  ∃ st w1 ds, construct P dst bnd w = .ok (st, w1) ∧ Waits env P dst bnd st ⟨ds, w1.mem⟩ w'

end Abu
