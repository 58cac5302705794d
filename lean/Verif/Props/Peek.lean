import Verif.Proofs.Peek
import Verif.Props.Chunks
/-
C82: `peek`.
-/
namespace Abu

section
variable {σ μ : Type} [DataSource σ] [Store μ]

/-- C82: `peek` changes nothing. -/
theorem C82_changes_nothing (q : Prog) (w : World σ μ) (r : Res) (w' : World σ μ) (h : Peeks q w r w') :
    w' = w := by
  obtain ⟨c, hc, _⟩ := id h
  obtain ⟨o, hq⟩ := peekForm_of_some q hc
  exact ((hq.peeks w r w').1 h).2

/-- C82 (partial: not for optional parts): whatever state the parser object is in, and whatever the data
source holds, `consume` returns what `peek` says, if it returns. -/
theorem C82_peek_is_consume_partial (env : Env) (p : Pat) (hp : ¬ p.AboutOptional) (sk : Prog)
    (req : Req) (dst bnd : Ref) (st : PState) (w : World σ μ) (r : Res)
    (h : Peeks (elabP sk req p) w r w) (r' : Res) (st' : PState) (w' : World σ μ)
    (hc : Evals env (elabP sk req p) dst bnd st w (.ok ((r', st'), w'))) : r' = r := by
  obtain ⟨c, hcm, _⟩ := id h
  obtain ⟨o, hq⟩ := peekForm_of_some _ hcm
  obtain ⟨_, n, hc⟩ := hc
  rcases hq.agrees ((hq.peeks w r w).1 h).1 hc with h | ⟨rfl, _⟩
  · exact h
  · exact absurd (PeekForm.aboutOptional p hq) hp

/-- C82 (partial: `PARTIAL` is left open): with optional parts, too, `consume` returns what `peek` says or
`PARTIAL`. -/
theorem C82_peek_or_partial_partial (env : Env) (p : Pat) (sk : Prog)
    (req : Req) (dst bnd : Ref) (st : PState) (w : World σ μ) (r : Res)
    (h : Peeks (elabP sk req p) w r w) (r' : Res) (st' : PState) (w' : World σ μ)
    (hc : Evals env (elabP sk req p) dst bnd st w (.ok ((r', st'), w'))) : r' = r ∨ r' = .PARTIAL := by
  obtain ⟨c, hcm, _⟩ := id h
  obtain ⟨o, hq⟩ := peekForm_of_some _ hcm
  obtain ⟨_, n, hc⟩ := hc
  exact (hq.agrees ((hq.peeks w r w).1 h).1 hc).imp_right And.right

end

/-- C82: in a parser object that was given any text, every parser that has `peek` can be asked. -/
theorem C82_always_answers (env : Env) (p : Pat) (dst : Ref) (m : Mem) (ops : List SOp) (a : Option Res)
    (w : World ContainerSeq Mem) (hd : ParserAfter env p dst m ops a w) (q : Pat) (hq : q.Peekable) (req : Req) :
    ∃ r, Peeks (elabP .fail req q) w r w := by
  obtain ⟨st, hd⟩ := hd
  obtain ⟨u, hu⟩ := hd.reads
  obtain ⟨o, hf, _⟩ := peekForm_pat hq .fail rfl req
  obtain ⟨r, hr⟩ := hf.look_some hu
  exact ⟨r, (hf.peeks w r w).2 ⟨hr, rfl⟩⟩

/-- C82: the patterns whose parsers have `peek` are those the specification lists. -/
theorem C82_who_can_peek (p : Pat) (req : Req) : (∃ c, (elabP .fail req p).peek = some c) ↔ p.Peekable := by
  rw [← Option.isSome_iff_exists]
  constructor
  · exact peekable_of_peek p _ _
  · intro h
    obtain ⟨o, hf, _⟩ := peekForm_pat h .fail rfl req
    exact hf.isSome

/-- C82: under a skipper no parser has one, other than the direct child of a `Recur`. -/
theorem C82_no_peek_with_skipper (p s : Pat) (hs : s ≠ .fail) (req : Req) (hr : req.recurChild = false) :
    (elabP (elabP .fail SkipReqs s) req p).peek = none :=
  no_peek p (isFail_elab hs) hr

/-- C82: an answer of `peek` other than `PARTIAL` is the one that the parser object comes to, whatever
text it is given later and however often `consume` has to be called. -/
theorem C82_is_the_verdict (env : Env) (p : Pat) (dst : Ref) (m : Mem) (ops : List SOp) (a : Option Res)
    (w : World ContainerSeq Mem) (hd : ParserAfter env p dst m ops a w) (ha : a = none ∨ a = some .PARTIAL)
    (r : Res) (h : Peeks (topParser p) w r w) (hr : r ≠ .PARTIAL) (ops' : List SOp) (r' : Res) (m' : Mem)
    (rest : List Ch) (hv : MakeParserRun env p dst m (ops ++ ops') (.ok (r', m', rest))) :
    r' = r ∨ r' = .PARTIAL := by
  obtain ⟨st, hd⟩ := hd
  have hs := (hd.session ha _ _).1 hv
  obtain ⟨c, hc, _⟩ := hd.cursor
  obtain ⟨k, hcm, _⟩ := id h
  obtain ⟨o, hq⟩ := peekForm_of_some _ hcm
  have hl := ((hq.peeks w r w).1 h).1
  rw [hq.look_sim hc] at hl
  exact hq.session (Session.sim ContainerSeq.dsSim (fun b f h => ContainerSeq.addBuffer_rel h b f) hs ⟨_, hc⟩)
    hl hr rfl

/-- C82 is false as stated: `peek` of an optional part always says `SUCCESS`, though `consume` may have to
wait for more text. -/
theorem C82_refuted : ¬ ∀ (env : Env) (p : Pat) (dst : Ref) (st : PState) (w : World ContainerSeq Mem)
    (r : Res), Peeks (topParser p) w r w → ∀ (r' : Res) (st' : PState) (w' : World ContainerSeq Mem),
    Evals env (topParser p) dst dst st w (.ok ((r', st'), w')) → r' = r := by
  intro h
  have := h (fun _ => none) (.opt (.char .any)) .nil (.wrap .unit) ⟨ContainerSeq.make, ⟨[], []⟩⟩ .SUCCESS
    ⟨_, rfl, rfl⟩ .PARTIAL _ _ ⟨nofun, 5, rfl⟩
  cases this

/-! Examples: a parser object for `!symbol({{'a', 1}})`. -/

example : Pat.Peekable (.not (.lexeme (.charSymbol [(97, .num 1)]))) := .not (.lexeme (.charSymbol _))

example : ¬ Pat.AboutOptional (.not (.charSymbol [(97, .num 1)])) := by
  intro h
  cases h with
  | not h => cases h

/-- It waits at first. -/
example : Peeks (topParser (.not (.charSymbol [(97, .num 1)])))
    (⟨ContainerSeq.make, ⟨[], []⟩⟩ : World ContainerSeq Mem) .PARTIAL ⟨ContainerSeq.make, ⟨[], []⟩⟩ :=
  ⟨_, rfl, rfl⟩

/-- Given `b`, `peek` says `SUCCESS`, and so does `consume`, also if there is more text by then. -/
example : ∃ w, ParserAfter (fun _ => none) (.not (.charSymbol [(97, .num 1)])) .nil ⟨[], []⟩ [.add [98] false]
    none w ∧ Peeks (topParser (.not (.charSymbol [(97, .num 1)]))) w .SUCCESS w :=
  ⟨_, ⟨_, driven_of_driveN (n := 9) (ops := [.add [98] false]) rfl⟩, ⟨_, rfl, rfl⟩⟩

example : MakeParserRun (fun _ => none) (.not (.charSymbol [(97, .num 1)])) .nil ⟨[], []⟩
    ([.add [98] false] ++ [.add [97] true, .consume]) (.ok (.SUCCESS, ⟨[], []⟩, [98, 97])) :=
  makeParser_of_sessionN (n := 9) rfl rfl

/-- Given `a`, `FAILURE`. -/
example : ∃ w, ParserAfter (fun _ => none) (.not (.charSymbol [(97, .num 1)])) .nil ⟨[], []⟩ [.add [97] false]
    none w ∧ Peeks (topParser (.not (.charSymbol [(97, .num 1)]))) w .FAILURE w :=
  ⟨_, ⟨_, driven_of_driveN (n := 9) (ops := [.add [97] false]) rfl⟩, ⟨_, rfl, rfl⟩⟩

/-- A parser that says `SUCCESS` at once, has to wait, and comes to that. -/
example : MakeParserRun (fun _ => none) (.opt (.strLit [97, 98])) .nil ⟨[], []⟩
    [.consume, .add [97] false, .consume, .add [99] true, .consume] (.ok (.SUCCESS, ⟨[], []⟩, [97, 99])) :=
  makeParser_of_sessionN (n := 9) rfl rfl

/-- Under a skipper there is no `peek` (`withSkipper`'s parser has none either). -/
example : (elabP (elabP .fail SkipReqs (.char (.single 32))) DefaultReqs .eoi).peek = none :=
  C82_no_peek_with_skipper .eoi (.char (.single 32)) nofun DefaultReqs rfl

end Abu
