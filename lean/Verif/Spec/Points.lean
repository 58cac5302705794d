import Verif.Spec.Buffers
/-
Specification vocabulary for the number of rollback points that exist at the same time.
-/
namespace Abu

/-- Data sources whose rollback points can be counted. -/
class Points (σ : Type) where
  points : σ → Nat

/-- `rollback_stack_.size()` (data_source/single_forward.h:24) -/
instance : Points SingleForward := ⟨fun s => s.stack.length⟩

/-- `rollback_stack_.size() + empty_rollbacks_` (data_source/container_sequence.h:43-45) -/
instance : Points ContainerSeq := ⟨fun s => s.rollback.length + s.emptyRollbacks⟩

/-- A data source together with a gauge. -/
structure Metered (σ : Type) where
  ds : σ
  /-- the largest number of rollback points there have been at the same time -/
  peak : Nat

namespace Metered
variable {σ : Type}

/-- The gauge starts at the number of rollback points there are. -/
def start [Points σ] (s : σ) : Metered σ := ⟨s, Points.points s⟩

/-- The data source behaves as before, and the gauge follows it. -/
instance [DataSource σ] [Points σ] : DataSource (Metered σ) where
  empty s := DataSource.empty s.ds
  final s := DataSource.final s.ds
  next s := DataSource.next s.ds
  advance s := (DataSource.advance s.ds).map fun d => ⟨d, s.peak⟩
  prepare s := ⟨DataSource.prepare s.ds, max s.peak (Points.points (DataSource.prepare s.ds))⟩
  commit s := (DataSource.commit s.ds).map fun d => ⟨d, s.peak⟩
  cancel s := (DataSource.cancel s.ds).map fun d => ⟨d, s.peak⟩

/-- `add_buffer` -/
def addBuffer (s : Metered ContainerSeq) (b : List Ch) (f : Bool) : Option (Metered ContainerSeq) :=
  (s.ds.addBuffer b f).map fun d => ⟨d, max s.peak (Points.points d)⟩

end Metered

/-- operations/parse.h:29-41, with a gauge: `parse` on the text `t` returns `r` and leaves `w`. -/
def ParsesMetered (env : Env) (p : Pat) (dst : Ref) (m : Mem) (t : List Ch) (r : Res)
    (w : World (Metered SingleForward) Mem) : Prop :=
  ∃ st w₀ st', construct (topParser p) dst dst
      (⟨Metered.start (SingleForward.make t), m⟩ : World (Metered SingleForward) Mem) = .ok (st, w₀) ∧
    Evals env (topParser p) dst dst st w₀ (.ok ((r, st'), w))

/-- operations/make_parser.h:22-51, with a gauge: a parser object after the user operations `ops`,
the last `consume` of which returned `r`. -/
def ParserAfterMetered (env : Env) (p : Pat) (dst : Ref) (m : Mem) (ops : List SOp) (r : Option Res)
    (w : World (Metered ContainerSeq) Mem) : Prop :=
  ∃ st, Driven Metered.addBuffer (Metered.start ContainerSeq.make) env (topParser p) dst m ops r st w

mutual
/-- There is no optional (`-p`) in the pattern, nor in its skippers. -/
def Pat.noOptional : Pat → Bool
  | .seq ps => Pat.noOptionals ps
  | .alt ps => Pat.noOptionals ps
  | .rep _ _ p => p.noOptional
  | .opt _ => false
  | .not p => p.noOptional
  | .discard p => p.noOptional
  | .lexeme p => p.noOptional
  | .bindDst p => p.noOptional
  | .construct _ p => p.noOptional
  | .action _ p => p.noOptional
  | .except op neg => op.noOptional && neg.noOptional
  | .list op sep => op.noOptional && sep.noOptional
  | .withSkipper p s => p.noOptional && s.noOptional
  | _ => true
/-- The same for a list. -/
def Pat.noOptionals : List Pat → Bool
  | [] => true
  | p :: ps => p.noOptional && Pat.noOptionals ps
end

mutual
/-- The number of optionals in the pattern. -/
def Pat.optionals : Pat → Nat
  | .seq ps => Pat.optionalsAll ps
  | .alt ps => Pat.optionalsAll ps
  | .rep _ _ p => p.optionals
  | .opt p => p.optionals + 1
  | .not p => p.optionals
  | .discard p => p.optionals
  | .lexeme p => p.optionals
  | .bindDst p => p.optionals
  | .construct _ p => p.optionals
  | .action _ p => p.optionals
  | .except op neg => op.optionals + neg.optionals
  | .list op sep => op.optionals + sep.optionals
  | .withSkipper p s => p.optionals + s.optionals
  | _ => 0
/-- The same for a list. -/
def Pat.optionalsAll : List Pat → Nat
  | [] => 0
  | p :: ps => p.optionals + Pat.optionalsAll ps
end

mutual
/-- There are no optionals inside what is parsed repeatedly: the operands of repetitions and lists,
and skippers. -/
def Pat.optionalsOutsideLoops : Pat → Bool
  | .seq ps => Pat.optionalsOutsideLoopsAll ps
  | .alt ps => Pat.optionalsOutsideLoopsAll ps
  | .rep _ _ p => p.noOptional
  | .opt p => p.optionalsOutsideLoops
  | .not p => p.optionalsOutsideLoops
  | .discard p => p.optionalsOutsideLoops
  | .lexeme p => p.optionalsOutsideLoops
  | .bindDst p => p.optionalsOutsideLoops
  | .construct _ p => p.optionalsOutsideLoops
  | .action _ p => p.optionalsOutsideLoops
  | .except op neg => op.optionalsOutsideLoops && neg.optionalsOutsideLoops
  | .list op sep => op.noOptional && sep.noOptional
  | .withSkipper p s => p.optionalsOutsideLoops && s.noOptional
  | _ => true
/-- The same for a list. -/
def Pat.optionalsOutsideLoopsAll : List Pat → Bool
  | [] => true
  | p :: ps => p.optionalsOutsideLoops && Pat.optionalsOutsideLoopsAll ps
end

/-- There is none in the patterns used through `Recur` either. -/
def Env.noOptional (env : Env) : Prop := ∀ id q, env id = some q → q.noOptional = true

end Abu
