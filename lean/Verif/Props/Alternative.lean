import Verif.Proofs.Alternatives
import Verif.Props.Collect
/-
C35: what failed alternatives leave behind.
-/
namespace Abu

/-! ### C35 -/

/-- C35 (partial): `p1 | … | pn | q | …` into an object. The alternatives before `q` fail, each one
alone; `q`, alone on the object as it was before, matches and leaves `v` in it. Then the whole leaves
`v` in the object too. For tidy patterns without actions that write through an `ActionParam`, without
own skippers among the alternatives, and if the alternatives before `q` are `traceless`, or `q`
assigns a value. -/
theorem C35_failed_alternatives_leave_no_trace_partial (env : Env) (els elf : Stale) (ps qs : List Pat)
    (q : Pat) (ty : Ty) (u u1 v : Val) (log log1 log2 : List LogEntry) (t rest : List Ch)
    (he : env.quiet) (henv : env.tidy false els elf)
    (hp : (Pat.alt (ps ++ q :: qs)).tidy false els elf false .any .any = true)
    (hq : (Pat.alt (ps ++ q :: qs)).quiet = true) (hk : ∀ p ∈ ps ++ [q], p.unskipped = true)
    (hc : (∀ p ∈ ps, p.traceless false = true) ∨ (q.assigns = true ∧ ∀ e, ty ≠ .coll e))
    (h : FailInTurn env ty t ps u log u1 log1)
    (hm : Alone env q ty u log1 t .SUCCESS v log2 rest) :
    Alone env (.alt (ps ++ q :: qs)) ty u log t .SUCCESS v log2 rest := by
  have quiets_mem : ∀ {l : List Pat}, Pat.quiets l = true → ∀ p ∈ l, p.quiet = true := by
    intro l
    induction l with
    | nil => intro _ p h; cases h
    | cons x l ih =>
      intro h p hp
      simp only [Pat.quiets, Bool.and_eq_true] at h
      rcases List.mem_cons.1 hp with rfl | hp
      · exact h.1
      · exact ih h.2 p hp
  have quiets_of : ∀ {l : List Pat}, (∀ p ∈ l, p.quiet = true) → Pat.quiets l = true := by
    intro l
    induction l with
    | nil => intro _; rfl
    | cons x l ih =>
      intro h
      simp only [Pat.quiets, Bool.and_eq_true]
      exact ⟨h x (by simp), ih fun p hp => h p (by simp [hp])⟩
  have traceless_of : ∀ {l : List Pat}, (∀ p ∈ l, p.traceless false = true) →
      Pat.tracelesses false l = true := by
    intro l
    induction l with
    | nil => intro _; rfl
    | cons x l ih =>
      intro h
      simp only [Pat.tracelesses, Bool.and_eq_true]
      exact ⟨h x (by simp), ih fun p hp => h p (by simp [hp])⟩
  have hq' : Pat.quiets (ps ++ q :: qs) = true := hq
  have hm1 : Alone env q ty u1 log1 t .SUCCESS v log2 rest := by
    rcases hc with hc | ⟨hc, hty⟩
    · have := h.traceless he (quiets_of fun p hp => quiets_mem hq' p (by simp [hp])) (traceless_of hc)
      rw [this]
      exact hm
    · obtain ⟨v2, h1, h2⟩ := hm.restart (by simp) he (quiets_mem hq' q (by simp)) hc hty u1
      rw [h2 rfl] at h1
      exact h1
  have hp' : Pat.tidyAlt false els elf .any .any (ps ++ q :: qs) = true := by
    simp only [Pat.tidy, Bool.and_eq_true] at hp
    exact hp.2
  obtain ⟨i', L, M', h1, h2, h3, h4⟩ := h.altDoes hm1 he hq' hk henv
    (fun p hx => tidyAlt_mem hp' p (by simp [hx])) t 0 rfl false (.at 0 [] ty)
    (M := ⟨[u], log⟩) (E := []) rfl rfl
  exact Does.alone h1.does h3 h4 h2

/-- C35, in every context, for `traceless` alternatives: whenever the parser made for an alternative
is used and fails, all objects have the values they had before it was constructed. The requirement
`r` is the one for the alternatives; it is atomic iff the one for the alternation is. -/
theorem C35_failed_alternative_in_context_partial {σ : Type} [DataSource σ] (env : Env) (p : Pat)
    (r : Req) (s : Option Pat) (sk : Prog) (dst bnd : Ref) (w w' : World σ Mem)
    (he : env.quiet) (hp : p.quiet = true) (hr : r.recurChild = true → r.ATOMIC = false)
    (ht : p.traceless r.ATOMIC = true) (hs : SkipperOf s sk)
    (hsq : ∀ x, s = some x → x.quiet = true)
    (hu : Used env (elabP sk r p) dst bnd w .FAILURE w') : w.mem.Extends w'.mem := by
  have h1 : sk.quiet = true := by
    cases hs with
    | none => rfl
    | some x => exact elab_quiet x (hsq x rfl) rfl
  exact hu.extends_af (af_elab p hr ht) (elab_quiet p hp h1) he

/-- C35 is false in general, for alternatives that build up a value: `(+char_('a') >> 'b') |
+char_('a')` on "aa" leaves "aaaa" in a string, the second alternative alone leaves "aa". -/
theorem C35_refuted :
    Alone noEnv (.seq [.rep 1 0 (charP 97), litC 98]) .string (.coll []) [] [97, 97] .FAILURE
      (.coll [.num 97, .num 97]) [] [] ∧
    Alone noEnv (.rep 1 0 (charP 97)) .string (.coll []) [] [97, 97] .SUCCESS
      (.coll [.num 97, .num 97]) [] [] ∧
    Alone noEnv (.alt [.seq [.rep 1 0 (charP 97), litC 98], .rep 1 0 (charP 97)]) .string (.coll []) []
      [97, 97] .SUCCESS (.coll [.num 97, .num 97, .num 97, .num 97]) [] [] :=
  ⟨⟨_, .of_parses (parses_of_parseN (n := 20) rfl), rfl, rfl⟩,
   ⟨_, .of_parses (parses_of_parseN (n := 20) rfl), rfl, rfl⟩,
   ⟨_, .of_parses (parses_of_parseN (n := 20) rfl), rfl, rfl⟩⟩

/-- C35 is false in general, for number parsers, whose constructor writes: `uint_ | "x"` on "x" sets
the destination to 0, the second alternative alone leaves it alone. -/
theorem C35_refuted_number :
    Alone noEnv (.strLit [120]) .unsigned (.num 7) [] [120] .SUCCESS (.num 7) [] [] ∧
    Alone noEnv (.alt [uint_, .strLit [120]]) .unsigned (.num 7) [] [120] .SUCCESS (.num 0) [] [] :=
  ⟨⟨_, .of_parses (parses_of_parseN (n := 20) rfl), rfl, rfl⟩,
   ⟨_, .of_parses (parses_of_parseN (n := 20) rfl), rfl, rfl⟩⟩

/-- Hypotheses met, assigning alternative: `(uint_ >> ';') | char_('7')` on "7," -/
example : Alone noEnv (.alt ([.seq [uint_, litC 59]] ++ charP 55 :: [])) .int (.num 3) [] [55, 44]
    .SUCCESS (.num 55) [] [44] := by
  refine C35_failed_alternatives_leave_no_trace_partial noEnv .none .none [.seq [uint_, litC 59]] []
    (charP 55) .int (.num 3) (.num 7) (.num 55) [] [] [] _ _ (by intro id q h; cases h) noEnv_tidy
    (by decide) rfl (by simp [Pat.unskipped, charP]) (.inr ⟨rfl, fun e => by simp [Ty.int]⟩)
    (.cons ⟨_, .of_parses (parses_of_parseN (n := 20) rfl), rfl, rfl⟩ .nil)
    ⟨_, .of_parses (parses_of_parseN (n := 20) rfl), rfl, rfl⟩

/-- Hypotheses met, traceless alternatives: `"ab" | char_('b') | +char_('a') | eoi` on "aa", into a string
with a character. -/
example : Alone noEnv (.alt ([.strLit [97, 98], charP 98] ++ .rep 1 0 (charP 97) :: [.eoi])) .string
    (.coll [.num 3]) [] [97, 97] .SUCCESS (.coll [.num 3, .num 97, .num 97]) [] [] := by
  refine C35_failed_alternatives_leave_no_trace_partial noEnv .none .none [.strLit [97, 98], charP 98]
    [.eoi] (.rep 1 0 (charP 97)) .string (.coll [.num 3]) (.coll [.num 3]) _ [] [] [] _ _
    (by intro id q h; cases h) noEnv_tidy (by decide) rfl (by simp [Pat.unskipped, charP])
    (.inl (by simp [Pat.traceless, charP]))
    (.cons ⟨_, .of_parses (parses_of_parseN (n := 20) rfl), rfl, rfl⟩
      (.cons ⟨_, .of_parses (parses_of_parseN (n := 20) rfl), rfl, rfl⟩ .nil))
    ⟨_, .of_parses (parses_of_parseN (n := 20) rfl), rfl, rfl⟩

/-- Hypotheses met, in an atomic context: `uint_ >> ';'` as alternative of the items of a repetition
into a vector, on "12,", fails having read "12". -/
example : Used (fun _ => none) (elabP .fail ⟨true, true, true, false⟩ (.seq [uint_, litC 59]))
    (.at 0 [] (.coll .unsigned)) .nil
    (⟨⟨[49, 50, 44], 0, [], true⟩, ⟨[.coll [.num 1]], []⟩⟩ : World Cursor Mem) .FAILURE
      ⟨⟨[49, 50, 44], 0, [], true⟩, ⟨[.coll [.num 1], .num 12], []⟩⟩ :=
  ⟨_, _, ⟨[49, 50, 44], 0, [0], true⟩, rfl, .last ⟨by simp, 12, rfl⟩ (by simp)⟩

end Abu
