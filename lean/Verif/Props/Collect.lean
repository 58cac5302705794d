import Verif.Proofs.Fresh
import Verif.Proofs.Items
import Verif.Props.Grammar
import Verif.Props.Leaf
import Verif.Spec.Decimal
/-
C31, C41: repetitions and lists into collections.
-/
namespace Abu

theorem Alone.rest_eq {env p ty u log t v log' rest t'} (h : Alone env p ty u log t .SUCCESS v log' rest)
    (hy : Yields env p t (some t')) : rest = t' := by
  obtain ⟨m', ⟨h1, _⟩, _⟩ := h
  rcases hy (.at 0 [] ty) ⟨[u], log⟩ with ⟨r, m1, rest1, h2, h3⟩ | ⟨e, _, h2⟩
  · cases h1.unique h2
    cases h3
    rfl
  · cases h1.unique h2

theorem Alone.recognises {env p ty u log t r v log' rest o}
    (h : Alone env p ty u log t r v log' rest) (ho : Fits o r rest) : Recognises env p t o := by
  obtain ⟨m', ⟨h1, _⟩, _⟩ := h
  exact ⟨_, _, _, _, _, h1, ho⟩

theorem AloneNil.recognises {env p log t r log' rest o}
    (h : AloneNil env p log t r log' rest) (ho : Fits o r rest) : Recognises env p t o := by
  obtain ⟨m', ⟨h1, _⟩, _⟩ := h
  exact ⟨_, _, _, _, _, h1, ho⟩

theorem Matches.times {env p ty log t vs log1 t1} (h : Matches env p ty log t vs log1 t1) :
    Times (fun u v => Recognises env p u (some v)) vs.length t t1 := by
  induction h with
  | nil => exact .zero
  | cons h1 _ _ ih => exact .succ (h1.recognises .ok) ih

theorem Separated.times {env op sep ty log t vs log1 t1}
    (h : Separated env op sep ty log t vs log1 t1) :
    Times (fun u v => ∃ w, Recognises env sep u (some w) ∧ Recognises env op w (some v))
      vs.length t t1 := by
  induction h with
  | nil => exact .zero
  | cons h0 h1 _ _ ih => exact .succ ⟨_, h0.recognises .ok, h1.recognises .ok⟩ ih

/-! ### C31 -/

/-- C31 (partial: patterns `p` that produce one value in the sense of `Pat.single`): when `p` alone
matches `vs.length` times in a row, producing the values `vs`, and then fails, or the upper bound is
reached, then a repetition of `p` into a collection appends the values `vs` to it, in this order,
and succeeds if the lower bound is reached. -/
theorem C31_repeat_appends_partial (env : Env) (p : Pat) (ty : Ty) (mn mx : Nat) (us vs : List Val)
    (log log1 log2 : List LogEntry) (t t1 : List Ch) (he : env.quiet) (hq : p.quiet = true)
    (hs : p.single = true) (hk : p.unskipped = true) (hn : ty ≠ .nil)
    (hty : p.assigns = true → ∀ e, ty ≠ .coll e) (hb : mx = 0 ∨ mn ≤ mx)
    (h : Matches env p ty log t vs log1 t1) (hst : Stops env p ty mx vs.length log1 t1 log2) :
    ∃ rest, Alone env (.rep mn mx p) (.coll ty) (.coll us) log t (reach mn vs.length)
      (.coll (us ++ vs)) log2 rest := by
  obtain ⟨rest, h1, _⟩ := Alone.rep hs hk hq he hn hty h hst hb
  exact ⟨rest, h1⟩

/-- C31 (partial: also tidy): the same, and the repetition stops after the last match. -/
theorem C31_repeat_exact_partial (env : Env) (els elf : Stale) (p : Pat) (ty : Ty) (mn mx : Nat)
    (us vs : List Val) (log log1 log2 : List LogEntry) (t t1 : List Ch) (he : env.quiet)
    (henv : env.tidy false els elf)
    (hp : (Pat.rep mn mx p).tidy false els elf false .any .any = true) (hq : p.quiet = true)
    (hs : p.single = true) (hk : p.unskipped = true) (hn : ty ≠ .nil)
    (hty : p.assigns = true → ∀ e, ty ≠ .coll e) (hb : mx = 0 ∨ mn ≤ mx) (hmn : mn ≤ vs.length)
    (h : Matches env p ty log t vs log1 t1) (hst : Stops env p ty mx vs.length log1 t1 log2) :
    Alone env (.rep mn mx p) (.coll ty) (.coll us) log t .SUCCESS (.coll (us ++ vs)) log2 t1 := by
  obtain ⟨rest, h1, _⟩ := Alone.rep (us := us) hs hk hq he hn hty h hst hb
  rw [show reach mn vs.length = .SUCCESS from if_pos hmn] at h1
  have hy := C18_repeat_success_partial env els elf henv mn mx p t t1 vs.length hp h.times hmn
    (by cases hst <;> omega) (by
      cases hst with
      | max a b => exact .inl ⟨a, b⟩
      | fails a b => exact .inr (b.recognises .no))
  rw [← h1.rest_eq hy]
  exact h1

/-- C31 (partial, likewise): a list into a collection appends the values of its items, in order. -/
theorem C31_list_appends_partial (env : Env) (op sep : Pat) (ty : Ty) (us vs : List Val) (v : Val)
    (log log0 log1 log2 : List LogEntry) (t t0 t1 : List Ch) (he : env.quiet)
    (hq : op.quiet = true) (hqs : sep.quiet = true) (hs : op.single = true)
    (hk : op.unskipped = true) (hn : ty ≠ .nil) (hty : op.assigns = true → ∀ e, ty ≠ .coll e)
    (h0 : Alone env op ty ty.defaultInit log t .SUCCESS v log0 t0) (hv : ty.Holds v)
    (h : Separated env op sep ty log0 t0 vs log1 t1) (hst : NoMore env op sep ty log1 t1 log2) :
    ∃ rest, Alone env (.list op sep) (.coll ty) (.coll us) log t .SUCCESS
      (.coll (us ++ v :: vs)) log2 rest :=
  Alone.list hs hk hq hqs he hn hty h0 hv h hst

/-- C31 (partial: also tidy): the same, and the list stops after its last item. -/
theorem C31_list_exact_partial (env : Env) (els elf : Stale) (op sep : Pat) (ty : Ty)
    (us vs : List Val) (v : Val) (log log0 log1 log2 : List LogEntry) (t t0 t1 : List Ch)
    (he : env.quiet) (henv : env.tidy false els elf)
    (hp : (Pat.list op sep).tidy false els elf false .any .any = true)
    (hq : op.quiet = true) (hqs : sep.quiet = true) (hs : op.single = true)
    (hk : op.unskipped = true) (hn : ty ≠ .nil) (hty : op.assigns = true → ∀ e, ty ≠ .coll e)
    (h0 : Alone env op ty ty.defaultInit log t .SUCCESS v log0 t0) (hv : ty.Holds v)
    (h : Separated env op sep ty log0 t0 vs log1 t1) (hst : NoMore env op sep ty log1 t1 log2) :
    Alone env (.list op sep) (.coll ty) (.coll us) log t .SUCCESS (.coll (us ++ v :: vs)) log2 t1 := by
  obtain ⟨rest, h1⟩ := Alone.list (us := us) hs hk hq hqs he hn hty h0 hv h hst
  have hy := C19_list_success_partial env els elf henv op sep t t0 t1 vs.length hp
    (h0.recognises .ok) h.times (by
      cases hst with
      | sep a => exact .inl (a.recognises .no)
      | item a b => exact .inr ⟨_, a.recognises .ok, b.recognises .no⟩)
  rw [← h1.rest_eq hy]
  exact h1

/-- C31 (partial, likewise): a list without any item appends nothing. -/
theorem C31_list_empty_partial (env : Env) (op sep : Pat) (ty : Ty) (us : List Val) (v : Val)
    (log log0 : List LogEntry) (t t0 : List Ch) (he : env.quiet)
    (hq : op.quiet = true) (hs : op.single = true)
    (hk : op.unskipped = true) (hn : ty ≠ .nil) (hty : op.assigns = true → ∀ e, ty ≠ .coll e)
    (h0 : Alone env op ty ty.defaultInit log t .FAILURE v log0 t0) :
    ∃ rest, Alone env (.list op sep) (.coll ty) (.coll us) log t .SUCCESS (.coll us) log0 rest :=
  Alone.list_empty hs hk hq he hn hty h0

/-- `(+char_('a') >> 'b') | +char_('a')` -/
def exTrace : Pat := .alt [.seq [.rep 1 0 (charP 97), litC 98], .rep 1 0 (charP 97)]

/-- C31 is false in general: `(+char_('a') >> 'b') | +char_('a')` alone makes "aaaa" of "aa", its
repetition into a `vector<string>` appends "aa". -/
theorem C31_refuted :
    Alone noEnv exTrace .string (.coll []) [] [97, 97] .SUCCESS
      (.coll [.num 97, .num 97, .num 97, .num 97]) [] [] ∧
    Alone noEnv (.rep 0 0 exTrace) (.coll .string) (.coll []) [] [97, 97] .SUCCESS
      (.coll [.coll [.num 97, .num 97]]) [] [] :=
  ⟨⟨_, .of_parses (parses_of_parseN (n := 20) rfl), rfl, rfl⟩,
   ⟨_, .of_parses (parses_of_parseN (n := 20) rfl), rfl, rfl⟩⟩

/-- `+char_(all - 'c')` as an item, separated by `'c'`. -/
def exWord : Pat := .rep 1 0 (.char (SetExpr.not (.single 99)).build)
example : Alone noEnv (.list exWord lc) (.coll .string) (.coll [.coll []]) [] [97, 98, 99, 97, 99]
    .SUCCESS (.coll ([.coll []] ++ [.coll [.num 97, .num 98], .coll [.num 97]])) [] [99] := by
  refine C31_list_exact_partial noEnv .none .none exWord lc .string [.coll []] [.coll [.num 97]]
    (.coll [.num 97, .num 98]) [] [] [] [] _ [99, 97, 99] [99] (by intro id q h; cases h) noEnv_tidy
    (by decide) rfl rfl rfl rfl (by simp [Ty.string]) (by simp [exWord, Pat.assigns])
    ⟨_, .of_parses (parses_of_parseN (n := 20) rfl), rfl, rfl⟩ trivial
    (.cons ⟨_, .of_parses (parses_of_parseN (n := 20) rfl), rfl⟩
      ⟨_, .of_parses (parses_of_parseN (n := 20) rfl), rfl, rfl⟩ trivial .nil)
    (.item ⟨_, .of_parses (parses_of_parseN (n := 20) rfl), rfl⟩
      ⟨_, .of_parses (parses_of_parseN (n := 20) rfl), rfl, rfl⟩)

/-- `repeat<1, 2>(uint_ >> ';')` on "7;08;9;" into a `vector<unsigned>` with one element -/
example : Alone noEnv (.rep 1 2 (.seq [uint_, litC 59])) (.coll .unsigned) (.coll [.num 3]) []
    [55, 59, 48, 56, 59, 57, 59] .SUCCESS (.coll ([.num 3] ++ [.num 7, .num 8])) [] [57, 59] := by
  refine C31_repeat_exact_partial noEnv .none .none _ .unsigned 1 2 [.num 3] [.num 7, .num 8] [] [] [] _
    [57, 59] (by intro id q h; cases h) noEnv_tidy (by decide) rfl rfl rfl (by simp [Ty.unsigned])
    (by simp [Pat.assigns]) (.inr (by decide)) (by decide)
    (.cons ⟨_, .of_parses (parses_of_parseN (n := 20) rfl), rfl, rfl⟩ (by simp [Ty.Holds, Ty.unsigned]; decide)
      (.cons ⟨_, .of_parses (parses_of_parseN (n := 20) rfl), rfl, rfl⟩ (by simp [Ty.Holds, Ty.unsigned]; decide) .nil))
    (.max (by decide) rfl)

/-! ### C41 -/

theorem isDigitSymbol_decimal : ∀ d, d < 10 → IsDigitSymbol d (48 + (d : Int)) := by
  intro d hd
  left
  have : d = 0 ∨ d = 1 ∨ d = 2 ∨ d = 3 ∨ d = 4 ∨ d = 5 ∨ d = 6 ∨ d = 7 ∨ d = 8 ∨ d = 9 := by omega
  rcases this with rfl | rfl | rfl | rfl | rfl | rfl | rfl | rfl | rfl | rfl <;>
    exact ⟨by decide, by decide⟩

theorem DigitString.snoc {B ds rs d c} (h : DigitString B ds rs) (hd : d < B) (hc : IsDigitSymbol d c) :
    DigitString B (ds ++ [c]) (rs ++ [d]) := by
  induction h with
  | nil => exact .cons hd hc .nil
  | cons h1 h2 _ ih => exact .cons h1 h2 ih

theorem decimal_digits (n : Nat) : ∃ rs, DigitString 10 (decimal n) rs ∧ positional 10 rs = n ∧
    decimal n ≠ [] := by
  induction n using Nat.strongRecOn with
  | _ n ih =>
    unfold decimal
    split
    · rename_i h
      refine ⟨[n], .cons h (isDigitSymbol_decimal n h) .nil, ?_, by simp⟩
      simp [positional]
    · rename_i h
      obtain ⟨rs, h1, h2, h3⟩ := ih (n / 10) (by omega)
      refine ⟨rs ++ [n % 10], h1.snoc (by omega) (isDigitSymbol_decimal _ (by omega)), ?_, by simp⟩
      simp only [positional, List.foldl_append, List.foldl_cons, List.foldl_nil] at h2 ⊢
      rw [h2]
      omega

theorem decimal_first (n : Nat) : ∀ c l, decimal n = c :: l → 48 ≤ c ∧ c ≤ 57 := by
  induction n using Nat.strongRecOn with
  | _ n ih =>
    intro c l h
    unfold decimal at h
    split at h
    · cases h; omega
    · obtain ⟨rs, _, _, h3⟩ := decimal_digits (n / 10)
      cases hd : decimal (n / 10) with
      | nil => exact absurd hd h3
      | cons d ds =>
        rw [hd] at h
        cases h
        exact ih (n / 10) (by omega) _ _ hd

theorem notDigit {c : Ch} (hc : c = 44 ∨ c = 93) : IsChar c ∧ ∀ r, r < 10 → ¬ IsDigitSymbol r c := by
  constructor
  · rcases hc with rfl | rfl <;> decide
  · intro r hr h
    have hr : r = 0 ∨ r = 1 ∨ r = 2 ∨ r = 3 ∨ r = 4 ∨ r = 5 ∨ r = 6 ∨ r = 7 ∨ r = 8 ∨ r = 9 := by omega
    have key : c = 48 + (r : Int) := by
      rcases h with ⟨h1, h2⟩ | ⟨h1, h2⟩ <;>
        rcases hr with rfl | rfl | rfl | rfl | rfl | rfl | rfl | rfl | rfl | rfl <;>
        exact h2
    omega

/-- `int_` alone reads back what is written. -/
theorem int_written (env : Env) (k : NumKind) (hk : k ≠ .signed 0) (n : Int) (h1 : k.inRange n)
    (h2 : k.inRange n.natAbs) (u : Val) (log : List LogEntry) (c : Ch) (rest : List Ch)
    (hc : c = 44 ∨ c = 93) :
    Alone env int_ (.num k) u log (written n ++ c :: rest) .SUCCESS (.num n) log (c :: rest) := by
  obtain ⟨rs, hd, hp, hne⟩ := decimal_digits n.natAbs
  have hlen : 1 ≤ (decimal n.natAbs).length := by
    cases h : decimal n.natAbs with
    | nil => exact absurd h hne
    | cons a l => simp
  have hrun : LongestRun 10 0 (decimal n.natAbs) rs (c :: rest) :=
    ⟨hd, fun h => absurd rfl h, .inr fun c' t' h => by cases h; exact notDigit hc⟩
  have hs : ∃ sg neg, Sign sg neg ∧ written n = sg ++ decimal n.natAbs ∧
      withSign neg n.natAbs = n := by
    unfold written
    split
    · exact ⟨[45], true, .minus, rfl, by simp only [withSign, if_true]; omega⟩
    · exact ⟨[], false, .none, rfl, by
        simp only [withSign, Bool.false_eq_true, if_false]; omega⟩
  obtain ⟨sg, neg, hsg, hw, hv⟩ := hs
  refine ⟨⟨[.num n], log⟩, ?_, rfl, rfl⟩
  rw [hw, List.append_assoc]
  refine C11_int_success env 10 1 0 (by decide) (by decide) sg neg hsg _ _ rs ?_ hrun hlen _ ?_ _ _
    (m1 := ⟨[.num (n.natAbs : Int)], log⟩) ?_ ?_
  · intro _ x l h
    cases hdd : decimal n.natAbs with
    | nil => exact absurd hdd hne
    | cons y ys =>
      rw [hdd] at h
      cases h
      have := decimal_first _ _ _ hdd
      omega
  · intro o p t h; cases h
  · rw [hp, hv]
    exact .value (m := ⟨[u], log⟩) (o := 0) (by simp) ⟨hk, h1⟩ rfl
  · rw [hp]
    exact .value (m := ⟨[u], log⟩) (o := 0) (by simp) ⟨hk, h2⟩ rfl

theorem aloneNil_lit (env : Env) (c : Ch) (hc : IsChar c) (log : List LogEntry) (rest : List Ch) :
    AloneNil env (litC c) log (c :: rest) .SUCCESS log rest := by
  have h := C08_char_success env (.single c) trivial c hc rfl rest .nil ⟨[], log⟩ _ .ignored
  obtain ⟨i', L, hd, hr, _⟩ := h.1.does (T := c :: rest) (i := 0) rfl
  have h2 : Does env (topParser (litC c)) .nil .nil (c :: rest) 0 ⟨[], log⟩ .SUCCESS i' L ⟨[], log⟩ :=
    Does.discard hd
  exact ⟨_, .of_parses (hr ▸ h2.parses), rfl⟩

theorem aloneNil_lit_fail (env : Env) (c d : Ch) (hd : IsChar d) (hne : d ≠ c)
    (log : List LogEntry) (rest : List Ch) :
    AloneNil env (litC c) log (d :: rest) .FAILURE log (d :: rest) := by
  have h := C08_char_failure env (.single c) trivial (d :: rest)
    (by rintro x r ⟨⟩; exact ⟨hd, hne⟩) .nil ⟨[], log⟩
  obtain ⟨i', L, hd, hr, _⟩ := h.1.does (T := d :: rest) (i := 0) rfl
  have h2 : Does env (topParser (litC c)) .nil .nil (d :: rest) 0 ⟨[], log⟩ .FAILURE i' L ⟨[], log⟩ :=
    Does.discard hd
  exact ⟨_, .of_parses (hr ▸ h2.parses), rfl⟩

/-- `int_ % ','` -/
def intList : Pat := .list int_ (litC 44)
/-- `lit('[') >> (int_ % ',') >> lit(']')` -/
def bracketList : Pat := .seq [litC 91, intList, litC 93]

theorem commaSeparated_cons (n : Int) : ∀ ns : List Int,
    commaSeparated (n :: ns) = written n ++ ns.flatMap fun m => 44 :: written m
  | [] => by simp [commaSeparated]
  | m :: ns => by
    simp only [commaSeparated]
    rw [commaSeparated_cons m ns]
    simp

theorem separated_ints (env : Env) (k : NumKind) (hk : k ≠ .signed 0) (log : List LogEntry)
    (rest : List Ch) : ∀ ns : List Int, (∀ n ∈ ns, k.inRange n ∧ k.inRange n.natAbs) →
    Separated env int_ (litC 44) (.num k) log ((ns.flatMap fun m => 44 :: written m) ++ 93 :: rest)
      (ns.map .num) log (93 :: rest)
  | [], _ => .nil
  | n :: ns, h => by
    obtain ⟨h1, h2⟩ := h n (by simp)
    have ih := separated_ints env k hk log rest ns fun m hm => h m (by simp [hm])
    rw [List.flatMap_cons, List.append_assoc, List.cons_append, List.map_cons]
    refine .cons (aloneNil_lit env 44 (by decide) log _) ?_ ⟨hk, h1⟩ ih
    cases ns with
    | nil => exact int_written env k hk n h1 h2 _ log 93 rest (.inr rfl)
    | cons m ns =>
      rw [List.flatMap_cons, List.append_assoc, List.cons_append]
      exact int_written env k hk n h1 h2 _ log 44 _ (.inl rfl)

/-- C41: parsing a list of integers in brackets with `lit('[') >> (int_ % ',') >> lit(']')` into a
vector appends exactly these integers, and takes the whole notation, whatever follows; under every
delivery schedule. The element type has to hold the integers and their absolute values. -/
theorem C41_round_trip (env : Env) (k : NumKind) (hk : k ≠ .signed 0) (he : env.quiet)
    (henv : env.tidy false .any .any) (ns : List Int)
    (hns : ∀ n ∈ ns, k.inRange n ∧ k.inRange n.natAbs) (us : List Val) (log : List LogEntry)
    (rest : List Ch) :
    Alone env bracketList (.coll (.num k)) (.coll us) log (bracketed ns ++ rest) .SUCCESS
      (.coll (us ++ ns.map .num)) log rest := by
  have hlist : Alone env intList (.coll (.num k)) (.coll us) log (commaSeparated ns ++ 93 :: rest)
      .SUCCESS (.coll (us ++ ns.map .num)) log (93 :: rest) := by
    cases ns with
    | nil =>
      have hfail : Alone env int_ (.num k) (Ty.num k).defaultInit log (93 :: rest) .FAILURE (.num 0) log
          (93 :: rest) := by
        refine ⟨⟨[.num 0], log⟩, ?_, rfl, rfl⟩
        have h0 : (Ty.num k).Holds (.num 0) := by
          refine ⟨hk, ?_⟩
          cases k with
          | ideal => trivial
          | unsigned w => exact ⟨by decide, Int.pow_pos (by decide)⟩
          | signed w =>
            refine ⟨?_, Int.pow_pos (by decide)⟩
            have : (0 : Int) < 2 ^ (w - 1) := Int.pow_pos (by decide)
            omega
        refine C11_int_failure env 10 1 0 (by decide) (by decide) (.inl rfl) [] false .none [] (93 :: rest) []
          (by rintro _ c l ⟨⟩; decide)
          ⟨.nil, fun h => absurd rfl h, .inr fun c t h => by cases h; exact notDigit (.inr rfl)⟩ (by decide)
          _ (by intro o p t h; cases h) _ _ (m1 := ⟨[.num 0], log⟩) ?_ ?_
        · exact .value (m := ⟨[(Ty.num k).defaultInit], log⟩) (o := 0) (by simp) h0 rfl
        · exact .value (m := ⟨[(Ty.num k).defaultInit], log⟩) (o := 0) (by simp) h0 rfl
      obtain ⟨r, hl⟩ := C31_list_empty_partial env int_ (litC 44) (.num k) us _ log log _ _ he rfl rfl
        rfl (by simp) (fun _ e => by simp) hfail
      have hy := C19_list_empty_partial env .any .any henv int_ (litC 44) (93 :: rest) (by decide)
        (hfail.recognises .no)
      have := hl.rest_eq hy
      subst this
      simpa [commaSeparated, intList] using hl
    | cons n ns =>
      obtain ⟨h1, h2⟩ := hns n (by simp)
      rw [commaSeparated_cons, List.append_assoc]
      refine C31_list_exact_partial env .any .any int_ (litC 44) (.num k) us (ns.map .num) (.num n)
        log log log log _ ((ns.flatMap fun m => 44 :: written m) ++ 93 :: rest) (93 :: rest) he henv
        (by decide) rfl rfl rfl rfl (by simp) (fun _ e => by simp) ?_ ⟨hk, h1⟩
        (separated_ints env k hk log rest ns fun m hm => hns m (by simp [hm]))
        (.sep (aloneNil_lit_fail env 44 93 (by decide) (by decide) log rest))
      cases ns with
      | nil => exact int_written env k hk n h1 h2 _ log 93 rest (.inr rfl)
      | cons m ns =>
        rw [List.flatMap_cons, List.append_assoc, List.cons_append]
        exact int_written env k hk n h1 h2 _ log 44 _ (.inl rfl)
  have ht : bracketed ns ++ rest = 91 :: (commaSeparated ns ++ 93 :: rest) := by
    simp [bracketed]
  rw [ht]
  refine Alone.seqInto he ?_ (by simp) rfl (by simp)
  refine .ignore rfl (aloneNil_lit env 91 (by decide) log _) (.value rfl hlist ?_)
  exact .ignore rfl (aloneNil_lit env 93 (by decide) log _) .nil

/-- C41 for unbounded integers. -/
theorem C41_round_trip_unbounded (ns : List Int) :
    Alone noEnv bracketList (.coll (.num .ideal)) (.coll []) [] (bracketed ns) .SUCCESS
      (.coll (ns.map .num)) [] [] := by
  have := C41_round_trip noEnv .ideal (by simp) (by intro id q h; cases h) noEnv_tidy ns
    (fun _ _ => ⟨trivial, trivial⟩) [] [] []
  simpa using this

/-- "[12,-7]" -/
example : bracketed [12, -7] = [91, 49, 50, 44, 45, 55, 93] := by
  simp [bracketed, commaSeparated, written, decimal]

end Abu
