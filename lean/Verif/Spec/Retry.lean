import Verif.Model.Retry
/-
Parsers whose actions are called again, at once and with the same value, until they do not throw.
-/
namespace Abu

/-- Nothing, a number, or a tuple of such types: none of their objects has anything to give away when it is
moved from. -/
inductive Ty.Numbers : Ty → Prop
  | nil : Numbers .nil
  | num {k} : Numbers (.num k)
  | tup {ts} : (∀ t ∈ ts, Numbers t) → Numbers (.tup ts)

/-- The operation, tried again until it does not throw; `n` bounds how often. -/
def Mem.persist (T : Throwing) : Nat → Mem → MemOp → Except Err Mem
  | 0, _, _ => .error .fuel
  | n + 1, m, o =>
    match m.throws T o with
    | none => m.run o
    | some (.error e) => .error e
    | some (.ok m1) => m1.persist T n o

section
variable {σ : Type} [DataSource σ]

/-- `exec` (`Machine.lean`) with such operations. -/
def execP (T : Throwing) (n : Nat)
    (call : Prog → Ref → Ref → PState → World σ Mem → Out σ Mem (Res × PState)) {α : Type} :
    Cmd α → World σ Mem → Out σ Mem α
  | .pure a, w => .ok (a, w)
  | .fault e, _ => .error e
  | .isEmpty k, w => execP T n call (k (DataSource.empty w.ds)) w
  | .isFinal k, w => execP T n call (k (DataSource.final w.ds)) w
  | .next k, w =>
    match DataSource.next w.ds with
    | none => .error .ubData
    | some c => execP T n call (k c) w
  | .advance k, w =>
    match DataSource.advance w.ds with
    | none => .error .ubData
    | some ds => execP T n call k { w with ds }
  | .prepare k, w => execP T n call k { w with ds := DataSource.prepare w.ds }
  | .commit k, w =>
    match DataSource.commit w.ds with
    | none => .error .ubData
    | some ds => execP T n call k { w with ds }
  | .cancel k, w =>
    match DataSource.cancel w.ds with
    | none => .error .ubData
    | some ds => execP T n call k { w with ds }
  | .mem o k, w =>
    match w.mem.persist T n o with
    | .error e => .error e
    | .ok mem => execP T n call k { w with mem }
  | .alloc t k, w => execP T n call (k (w.mem.alloc t).1) { w with mem := (w.mem.alloc t).2 }
  | .call p d b s k, w =>
    match call p d b s w with
    | .error e => .error e
    | .ok ((r, s'), w') => execP T n call (k r s') w'

/-- `run` (`Machine.lean`) with such operations. -/
def persisting (T : Throwing) (env : Env) : Mach σ Mem
  | 0, _, _, _, _, _ => .error .fuel
  | n + 1, p, dst, bnd, st, w =>
    match execP T (n + 1) (persisting T env n) (body env p dst bnd st) w with
    | .error e => .error e
    | .ok (.ret r st', w') => .ok ((r, st'), w')
    | .ok (.cont st', w') => persisting T env n p dst bnd st' w'

end

mutual
/-- Parser objects whose `consume`, called again after it has returned `SUCCESS` (`ok`) or `FAILURE`
(`!ok`), returns the same and changes nothing. -/
def Prog.settles (ok : Bool) : Prog → Bool
  | .strLit _ => true
  | .eoi => true
  | .pass => true
  | .fail => true
  | .uint _ _ mx => !ok || mx == 0
  | .char _ => !ok
  | .charSymbol _ => !ok
  | .symbol _ => !ok
  | .int .. => false
  | .seq slots ps =>
    slots.length == ps.length && (if ok then Prog.lastSettles true ps else Prog.allSettle false ps)
  | .alt ps => if ok then Prog.allSettle true ps else Prog.lastSettles false ps
  | .rep _ mx p => (!ok || mx == 0) && p.settles false
  | .except p q => if ok then p.settles true else p.settles false && q.settles true
  | .discard p => p.settles ok
  | .lexeme p => p.settles ok
  | .bindDst p => p.settles ok
  | .withSkipper p => p.settles ok
  | .skip _ p => p.settles ok
  | .action _ p => !ok && p.settles false
  | .construct _ p => !ok && p.settles false
  | .atomic p => !ok && p.settles false
  | _ => false
def Prog.allSettle (ok : Bool) : List Prog → Bool
  | [] => true
  | p :: ps => p.settles ok && Prog.allSettle ok ps
def Prog.lastSettles (ok : Bool) : List Prog → Bool
  | [] => true
  | [p] => p.settles ok
  | _ :: p :: ps => Prog.lastSettles ok (p :: ps)
end

mutual
/-- The operands of all actions are such parser objects, and what they give to the action is a number
or nothing. -/
def Prog.retriable : Prog → Bool
  | .action a p => a.landing.moveCopies && p.settles true && p.retriable
  | .seq _ ps => Prog.retriables ps
  | .alt ps => Prog.retriables ps
  | .rep _ _ p => p.retriable
  | .opt p => p.retriable
  | .not p => p.retriable
  | .discard p => p.retriable
  | .lexeme p => p.retriable
  | .bindDst p => p.retriable
  | .construct _ p => p.retriable
  | .except p q => p.retriable && q.retriable
  | .list p q => p.retriable && q.retriable
  | .withSkipper p => p.retriable
  | .atomic p => p.retriable
  | .clean p => p.retriable
  | .skip s p => s.retriable && p.retriable
  | .recur _ sk => sk.retriable
  | _ => true
def Prog.retriables : List Prog → Bool
  | [] => true
  | p :: ps => p.retriable && Prog.retriables ps
end

mutual
/-- Patterns whose parser objects settle (`Prog.settles`). `clean`: whether the context requires a clean
failure, for which an adapter may be put around the parser that does not settle. -/
def Pat.settles (ok clean : Bool) : Pat → Bool
  | .strLit _ => !clean
  | .eoi => true
  | .pass => true
  | .fail => true
  | .uint _ _ mx => (!ok || mx == 0) && (!clean || mx == 1)
  | .char _ => !ok
  | .charSymbol _ => !ok
  | .symbol _ => !ok && !clean
  | .seq ps => !clean && (if ok then Pat.lastSettles true false ps else Pat.allSettle false false ps)
  | .alt ps => if ok then Pat.allSettle true true ps else Pat.lastSettles false true ps
  | .rep mn mx p => !clean && (!ok || mx == 0) && p.settles false (mn != mx || mx == 0)
  | .except p q => !clean && (if ok then p.settles true false
      else p.settles false false && q.settles true true)
  | .discard p => p.settles ok clean
  | .lexeme p => p.settles ok clean
  | .bindDst p => p.settles ok clean
  | .withSkipper p _ => (!clean || p.FAILS_CLEANLY) && p.settles ok clean
  | .action _ p => !ok && p.settles false clean
  | .construct _ p => !ok && p.settles false clean
  | _ => false
def Pat.allSettle (ok clean : Bool) : List Pat → Bool
  | [] => true
  | p :: ps => p.settles ok clean && Pat.allSettle ok clean ps
def Pat.lastSettles (ok clean : Bool) : List Pat → Bool
  | [] => true
  | [p] => p.settles ok clean
  | _ :: p :: ps => Pat.lastSettles ok clean (p :: ps)
end

mutual
/-- The operands of all actions are such patterns, and what they give to the action is a number or
nothing. `clean`: see `Pat.settles`. -/
def Pat.retriable (clean : Bool) : Pat → Bool
  | .action a p => a.landing.moveCopies && p.settles true clean && p.retriable clean
  | .seq ps => Pat.retriables false ps
  | .alt ps => Pat.retriables true ps
  | .rep mn mx p => p.retriable (mn != mx || mx == 0)
  | .opt p => p.retriable false
  | .not p => p.retriable false
  | .discard p => p.retriable clean
  | .lexeme p => p.retriable clean
  | .bindDst p => p.retriable clean
  | .construct _ p => p.retriable clean
  | .except p q => p.retriable false && q.retriable true
  | .list p q => p.retriable false && q.retriable false
  | .withSkipper p s => p.retriable (clean && p.FAILS_CLEANLY) && s.retriable true
  | _ => true
def Pat.retriables (clean : Bool) : List Pat → Bool
  | [] => true
  | p :: ps => p.retriable clean && Pat.retriables clean ps
end

/-- The same of the definitions of all `Recur`s. -/
def Env.retriable (env : Env) : Prop := ∀ id q, env id = some q → q.retriable false = true

/-- An action that looks at nothing but the value it is given. -/
def Act.unaware (a : Act) : Prop := a.param = false ∧ ∀ l l' v b, a.fn l v b = a.fn l' v b

/-- `l'` has the calls of `l` in the same order, each of them once or several times on end. -/
inductive Repeats : List LogEntry → List LogEntry → Prop
  | nil : Repeats [] []
  | cons (c : LogEntry) (n : Nat) {l l' : List LogEntry} : Repeats l l' →
      Repeats (c :: l) (List.replicate (n + 1) c ++ l')

/-- No action throws for ever when it is called again and again with the same value. -/
def Throwing.givesUp (T : Throwing) : Prop :=
  ∀ id l v, ∃ k, T id (l ++ List.replicate k ⟨id, v⟩) v = false

end Abu
