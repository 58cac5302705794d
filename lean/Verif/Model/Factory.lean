import Verif.Model.Pattern
/-
Selection of parser classes and adapters: /repo/include/abulafia/parsers/coroutine/
parser_factory.h and the `ParserFactory` specialisations. Template instantiation is modelled by
the function `elabP` from patterns to parser programs `Prog`.
-/
namespace Abu

/-- parsers/coroutine/dst_behavior.h:15-18 -/
inductive DstBehavior
  | IGNORE
  | VALUE
  deriving DecidableEq, Repr

/-- `ParserFactory<...>::ATOMIC` of every pattern (files cited case by case, all under
parsers/coroutine). -/
def Pat.ATOMIC : Pat → Bool
  | .char _ => true            -- leaf/character.h:47
  | .charSymbol _ => true      -- leaf/char_symbol.h:64
  | .strLit _ => true          -- leaf/string_literal.h:58
  | .symbol _ => true          -- leaf/string_symbol.h:91
  | .int .. => false           -- leaf/numeric/int.h:94
  | .uint .. => false          -- leaf/numeric/uint.h:69
  | .eoi => true               -- leaf/eoi.h:44
  | .pass => true              -- leaf/pass.h:40
  | .fail => true              -- leaf/fail.h:38
  | .seq _ => false            -- nary/sequence.h:177
  | .alt _ => true             -- nary/alternative.h:118
  | .rep .. => false           -- unary/repeat.h:93
  | .opt _ => true             -- unary/optional.h:76
  | .not _ => true             -- unary/not.h:80
  | .discard _ => true         -- unary/discard.h:45
  | .lexeme _ => true          -- unary/lexeme.h:50
  | .bindDst _ => false        -- unary/bind_dst.h:57
  | .construct .. => true      -- unary/construct.h:58
  | .action .. => true         -- unary/action.h:202
  | .except .. => true         -- binary/except.h:79
  | .list .. => false          -- binary/list.h:107
  | .withSkipper p _ => p.ATOMIC -- with_skipper.h:49
  | .recur .. => false         -- recur.h:61

/-- `ParserFactory<...>::FAILS_CLEANLY` of every pattern. -/
def Pat.FAILS_CLEANLY : Pat → Bool
  | .char _ => true            -- leaf/character.h:48
  | .charSymbol _ => true      -- leaf/char_symbol.h:65
  | .strLit _ => false         -- leaf/string_literal.h:59
  | .symbol _ => false         -- leaf/string_symbol.h:92
  | .int _ _ mx => mx == 1     -- leaf/numeric/int.h:95
  | .uint _ _ mx => mx == 1    -- leaf/numeric/uint.h:70
  | .eoi => true               -- leaf/eoi.h:45
  | .pass => true              -- leaf/pass.h:41
  | .fail => true              -- leaf/fail.h:39
  | .seq _ => false            -- nary/sequence.h:178
  | .alt _ => true             -- nary/alternative.h:119
  | .rep .. => false           -- unary/repeat.h:94
  | .opt _ => true             -- unary/optional.h:77
  | .not _ => true             -- unary/not.h:81
  | .discard _ => true         -- unary/discard.h:46
  | .lexeme _ => true          -- unary/lexeme.h:51
  | .bindDst _ => true         -- unary/bind_dst.h:58
  | .construct .. => true      -- unary/construct.h:59
  | .action .. => true         -- unary/action.h:203
  | .except .. => false        -- binary/except.h:80
  | .list .. => true           -- binary/list.h:108
  | .withSkipper p _ => p.FAILS_CLEANLY -- with_skipper.h:50
  | .recur .. => false         -- recur.h:62

/-- `ParserFactory<...>::dst_behavior()` of every pattern. `Lexeme`'s (unary/lexeme.h:45-47) is
ill-formed when used; the evidently intended one is modelled. The `static_assert` of `BindDst`
(unary/bind_dst.h:49-51) is not modelled. -/
def Pat.dstBehavior : Pat → DstBehavior
  | .char _ => .VALUE          -- leaf/character.h:44
  | .charSymbol _ => .VALUE    -- leaf/char_symbol.h:61
  | .strLit _ => .IGNORE       -- leaf/string_literal.h:53
  | .symbol _ => .VALUE        -- leaf/string_symbol.h:88
  | .int .. => .VALUE          -- leaf/numeric/int.h:90
  | .uint .. => .VALUE         -- leaf/numeric/uint.h:65
  | .eoi => .IGNORE            -- leaf/eoi.h:41
  | .pass => .IGNORE           -- leaf/pass.h:37
  | .fail => .IGNORE           -- leaf/fail.h:35
  | .seq _ => .VALUE           -- nary/sequence.h:174
  | .alt _ => .VALUE           -- nary/alternative.h:115
  | .rep _ _ p => p.dstBehavior -- unary/repeat.h:88-90
  | .opt p => p.dstBehavior    -- unary/optional.h:71-73
  | .not _ => .IGNORE          -- unary/not.h:77
  | .discard _ => .IGNORE      -- unary/discard.h:42
  | .lexeme p => p.dstBehavior -- unary/lexeme.h:45-47
  | .bindDst p => p.dstBehavior -- unary/bind_dst.h:48-54
  | .construct .. => .VALUE    -- unary/construct.h:55
  | .action a _ => if a.void then .IGNORE else .VALUE -- unary/action.h:196-199
  | .except op _ => op.dstBehavior -- binary/except.h:74-76
  | .list op _ => op.dstBehavior -- binary/list.h:102-104
  | .withSkipper p _ => p.dstBehavior -- with_skipper.h:44-46
  | .recur _ n => if n then .IGNORE else .VALUE -- recur.h:52-58

/-- Requirements a parent has on a sub-parser (`REQ_T`). `recurChild` tells the very type
`RecurChildReqs` (recur.h:18-20), for which no adapter is applied (recur.h:69-78). -/
structure Req where
  ATOMIC : Bool
  FAILS_CLEANLY : Bool
  CONSUMES : Bool
  recurChild : Bool
  deriving DecidableEq, Repr

/-- parser_factory.h:25-31 -/
def DefaultReqs : Req := ⟨false, false, false, false⟩
/-- recur.h:18-20 -/
def RecurChildReqs : Req := ⟨false, false, false, true⟩
/-- adapters/skip.h:37-39 -/
def SkipReqs : Req := ⟨false, true, true, false⟩

/-- Parser classes with their template arguments. The destination type, also a template
argument, is carried by the destination reference at run time instead. -/
inductive Prog
  | char (s : CharSet)
  | charSymbol (m : List (Ch × Val))
  | strLit (s : List Ch)
  | symbol (root : Node)
  | int (base min max : Nat)
  | uint (base min max : Nat)
  | eoi
  | pass
  | fail
  /-- `slots`: for each child its index in a destination tuple, `none` for children with
  `DstBehavior::IGNORE` -/
  | seq (slots : List (Option Nat)) (ps : List Prog)
  | alt (ps : List Prog)
  | rep (min max : Nat) (p : Prog)
  | opt (p : Prog)
  | not (p : Prog)
  | discard (p : Prog)
  | lexeme (p : Prog)
  | bindDst (p : Prog)
  | construct (tys : List Ty) (p : Prog)
  | action (a : Act) (p : Prog)
  | except (op neg : Prog)
  | list (op sep : Prog)
  | withSkipper (p : Prog)
  /-- the operand is instantiated with the skipper `sk` of the context (`fail`: none) -/
  | recur (id : Nat) (sk : Prog)
  /-- adapters/atomic.h -/
  | atomic (p : Prog)
  /-- adapters/clean_failure.h -/
  | clean (p : Prog)
  /-- adapters/skip.h -/
  | skip (s p : Prog)

/-- `std::is_same<skip_t, Fail>` (parser_factory.h:85). -/
def Prog.isFail : Prog → Bool
  | .fail => true
  | _ => false

/-- nary/sequence.h:31-43 `choose_tuple_index` for every child, `n` being the number of value
children so far; `none` for ignoring children (nary/sequence.h:52-55). -/
def tupleSlots : Nat → List Pat → List (Option Nat)
  | _, [] => []
  | n, p :: ps =>
    match p.dstBehavior with
    | .IGNORE => none :: tupleSlots n ps
    | .VALUE => some n :: tupleSlots (n + 1) ps

/-- parser_factory.h:82-97: wrap the raw parser in the adapters. -/
def adapt (sk : Prog) (atomic clean : Bool) (raw : Prog) : Prog :=
  let a := if atomic then .atomic raw else raw
  let c := if clean then .clean a else a
  if sk.isFail then c else .skip sk c

/-- parser_factory.h:82 -/
def Req.needsAtomic (r : Req) (p : Pat) : Bool := !r.recurChild && r.ATOMIC && !p.ATOMIC
/-- parser_factory.h:83-84 -/
def Req.needsClean (r : Req) (p : Pat) : Bool :=
  !r.recurChild && r.FAILS_CLEANLY && !p.FAILS_CLEANLY

/-- Requirements seen by the raw parser: adapters/atomic.h:28-30 and clean_failure.h:30-32 lower
the ones the adapters take care of. -/
def Req.lower (r : Req) (p : Pat) : Req :=
  if r.recurChild then r
  else { r with
    ATOMIC := r.ATOMIC && !(r.needsAtomic p)
    FAILS_CLEANLY := r.FAILS_CLEANLY && !(r.needsClean p) }

/-- The skip adapter of a parser with requirements `r`: none for `RecurChildReqs`
(recur.h:69-78). -/
def Req.skipper (r : Req) (sk : Prog) : Prog := if r.recurChild then .fail else sk

/-- `struct child_req_t : public REQ_T { enum {...}; }`: a new type, so never `RecurChildReqs`. -/
def Req.derive (r : Req) : Req := { r with recurChild := false }

mutual
/-- parser_factory.h:76-100 `AdaptedParserFactory::create` and recur.h:69-78: the parser type for
pattern `p` in a context with skipper `sk` under requirements `r`. -/
def elabP (sk : Prog) (r : Req) : Pat → Prog
  | .char s => adapt (r.skipper sk) false false (.char s)
  | .charSymbol m => adapt (r.skipper sk) false false (.charSymbol m)
  | .strLit s =>
    adapt (r.skipper sk) false (r.needsClean (.strLit s)) (.strLit s)
  | .symbol n =>
    adapt (r.skipper sk) false (r.needsClean (.symbol n)) (.symbol n)
  | .int b mn mx =>
    adapt (r.skipper sk) (r.needsAtomic (.int b mn mx)) (r.needsClean (.int b mn mx))
      (.int b mn mx)
  | .uint b mn mx =>
    adapt (r.skipper sk) (r.needsAtomic (.uint b mn mx)) (r.needsClean (.uint b mn mx))
      (.uint b mn mx)
  | .eoi => adapt (r.skipper sk) false false .eoi
  | .pass => adapt (r.skipper sk) false false .pass
  | .fail => adapt (r.skipper sk) false false .fail
  -- nary/sequence.h:100-107
  | .seq ps =>
    adapt (r.skipper sk) (r.needsAtomic (.seq ps)) (r.needsClean (.seq ps))
      (.seq (tupleSlots 0 ps) (elabPs sk ⟨false, false, false, false⟩ ps))
  -- nary/alternative.h:54-61
  | .alt ps =>
    adapt (r.skipper sk) (r.needsAtomic (.alt ps)) (r.needsClean (.alt ps))
      (.alt (elabPs sk { (r.lower (.alt ps)).derive with FAILS_CLEANLY := true } ps))
  -- unary/repeat.h:28-47
  | .rep mn mx p =>
    adapt (r.skipper sk) (r.needsAtomic (.rep mn mx p)) (r.needsClean (.rep mn mx p))
      (.rep mn mx (elabP sk ⟨true, mn != mx || mx == 0, r.CONSUMES, false⟩ p))
  -- unary/optional.h:22-40
  | .opt p =>
    adapt (r.skipper sk) (r.needsAtomic (.opt p)) (r.needsClean (.opt p))
      (.opt (elabP sk ⟨true, false, r.CONSUMES, false⟩ p))
  -- unary/not.h:22-29
  | .not p =>
    adapt (r.skipper sk) (r.needsAtomic (.not p)) (r.needsClean (.not p))
      (.not (elabP sk { r.derive with ATOMIC := false, FAILS_CLEANLY := false } p))
  -- unary/discard.h:25: the requirements are passed on as they are
  | .discard p =>
    adapt (r.skipper sk) (r.needsAtomic (.discard p)) (r.needsClean (.discard p))
      (.discard (elabP sk (r.lower (.discard p)) p))
  -- unary/lexeme.h:22-24: same requirements, no skipper
  | .lexeme p =>
    adapt (r.skipper sk) (r.needsAtomic (.lexeme p)) (r.needsClean (.lexeme p))
      (.lexeme (elabP .fail (r.lower (.lexeme p)) p))
  -- unary/bind_dst.h:23-29
  | .bindDst p =>
    adapt (r.skipper sk) (r.needsAtomic (.bindDst p)) (r.needsClean (.bindDst p))
      (.bindDst (elabP sk { (r.lower (.bindDst p)).derive with ATOMIC := false } p))
  -- unary/construct.h:27-31
  | .construct tys p =>
    adapt (r.skipper sk) (r.needsAtomic (.construct tys p)) (r.needsClean (.construct tys p))
      (.construct tys (elabP sk { (r.lower (.construct tys p)).derive with ATOMIC := false } p))
  -- unary/action.h:153-173
  | .action a p =>
    adapt (r.skipper sk) (r.needsAtomic (.action a p)) (r.needsClean (.action a p))
      (.action a (elabP sk ⟨false, (r.lower (.action a p)).FAILS_CLEANLY, r.CONSUMES, false⟩ p))
  -- binary/except.h:26-42
  | .except op neg =>
    adapt (r.skipper sk) (r.needsAtomic (.except op neg)) (r.needsClean (.except op neg))
      (.except (elabP sk { (r.lower (.except op neg)).derive with FAILS_CLEANLY := false } op)
        (elabP sk ⟨false, true, false, false⟩ neg))
  -- binary/list.h:27-43
  | .list op sep =>
    adapt (r.skipper sk) (r.needsAtomic (.list op sep)) (r.needsClean (.list op sep))
      (.list (elabP sk ⟨true, false, false, false⟩ op) (elabP sk ⟨false, false, false, false⟩ sep))
  -- with_skipper.h:25-26: same requirements, another skipper; adapters/skip.h:35-42: the skip
  -- parser is instantiated without skipper
  | .withSkipper p s =>
    adapt (r.skipper sk) (r.needsAtomic (.withSkipper p s)) (r.needsClean (.withSkipper p s))
      (.withSkipper (elabP (elabP .fail SkipReqs s) (r.lower (.withSkipper p s)) p))
  -- recur.h:28: instantiated when used
  | .recur id n =>
    adapt (r.skipper sk) (r.needsAtomic (.recur id n)) (r.needsClean (.recur id n))
      (.recur id sk)
/-- The parser types of the children of an n-ary pattern. -/
def elabPs (sk : Prog) (r : Req) : List Pat → List Prog
  | [] => []
  | p :: ps => elabP sk r p :: elabPs sk r ps
end

end Abu
