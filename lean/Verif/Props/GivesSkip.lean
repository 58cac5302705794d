import Verif.Proofs.GivesSkipRun
import Verif.Props.Gives
import Verif.Spec.Spread
/-
C77: the values a grammar computes when characters are skipped.
-/
namespace Abu

/-- A set of characters as a skipper. -/
theorem charSkipper (S : CharSet) : (Pat.char S).SkipsSet S := ⟨rfl, fun _ => rfl⟩

/-- C77 (partial: the skipper matches one character of a set `S`: a set, an alternative of sets, the same
discarded or in a lexeme; patterns that leave no stale rollback point, so
without optional parts; otherwise as C76): when the grammar, with the characters of `S` skipped
before every token, gives the value `u'`, every parser for it with this skipper succeeds, leaves
`u'` in the destination and has made these calls of actions. The text left unread is the one that
the grammar says, up to characters that are skipped. Under every delivery schedule. -/
theorem C77_match_value_partial (env : Env) (s : Pat) (S : CharSet) (hs : s.SkipsSet S) (he : env.quiet)
    (henv : env.tidy true .none .none) (p : Pat) (hq : p.quiet = true)
    (hp : p.tidy true .none .none false .none .none = true) (ty : Ty) (u u' : Val)
    (log log' : List LogEntry) (t rest : List Ch)
    (h : GivesSk env S p ty u log t (some (u', rest)) log') :
    ∃ rest', Alone env (.withSkipper p s) ty u log t .SUCCESS u' log' rest' ∧
      skipped S rest' = skipped S rest := by
  obtain ⟨E, rfl, hE⟩ := hs.eater
  obtain ⟨i', M', h1, h2, h3, h4⟩ := (GivesSk.sk he henv h hq hp).solo (rc := false) (c := false) (cs := false) (T := t)
    (j := 0) (i := 0) (M := ⟨[u], log⟩) (x := 0) (q := []) (.at 0 [] ty) (Here.mk' hp (.of_eq rfl) (.of_eq rfl) rfl)
    (look_nil.2 rfl) (.inl rfl)
  exact ⟨_, (hE ▸ h1).withSkipper.does.alone h3 h4 rfl, h2⟩

/-- C77 (partial: likewise): when the grammar gives no value, every parser for it fails, and has
made these calls of actions. -/
theorem C77_no_match_partial (env : Env) (s : Pat) (S : CharSet) (hs : s.SkipsSet S) (he : env.quiet)
    (henv : env.tidy true .none .none) (p : Pat) (hq : p.quiet = true)
    (hp : p.tidy true .none .none false .none .none = true) (ty : Ty) (u : Val)
    (log log' : List LogEntry) (t : List Ch) (h : GivesSk env S p ty u log t none log') :
    ∃ v rest, Alone env (.withSkipper p s) ty u log t .FAILURE v log' rest := by
  obtain ⟨E, rfl, hE⟩ := hs.eater
  obtain ⟨i', M', h1, h2, ⟨w, h3⟩, h4⟩ := (GivesSk.sk he henv h hq hp).solo (rc := false) (c := false) (cs := false) (T := t)
    (j := 0) (i := 0) (M := ⟨[u], log⟩) (x := 0) (q := []) (.at 0 [] ty) (Here.mk' hp (.of_eq rfl) (.of_eq rfl) rfl)
    (look_nil.2 rfl) (.inl rfl)
  exact ⟨_, _, (hE ▸ h1).withSkipper.does.alone h3 h4 rfl⟩

/-- C77 (partial: likewise): without a destination. -/
theorem C77_calls_without_destination_partial (env : Env) (s : Pat) (S : CharSet) (hs : s.SkipsSet S) (he : env.quiet)
    (henv : env.tidy true .none .none) (p : Pat) (hq : p.quiet = true)
    (hp : p.tidy true .none .none false .none .none = true) (log log' : List LogEntry)
    (t rest : List Ch) (h : GivesSkNil env S p log t (some rest) log') :
    ∃ rest', AloneNil env (.withSkipper p s) log t .SUCCESS log' rest' ∧
      skipped S rest' = skipped S rest := by
  obtain ⟨E, rfl, hE⟩ := hs.eater
  obtain ⟨i', M', h1, h2, h3⟩ := (GivesSkNil.sk he henv h hq hp) (rc := false) (c := false) (cs := false) (T := t)
    (j := 0) (i := 0) (M := ⟨[], log⟩) .nil (Here.mk' hp (.of_eq rfl) (.of_eq rfl) rfl)
  exact ⟨_, AloneNil.of_does (p := .withSkipper p s) (hE ▸ h1).withSkipper.does h3 rfl, h2⟩

/-- C77 (partial: likewise): the grammar gives at most one value for a text. -/
theorem C77_one_value_partial (env : Env) (S : CharSet) (he : env.quiet)
    (henv : env.tidy true .none .none) (p : Pat) (hq : p.quiet = true)
    (hp : p.tidy true .none .none false .none .none = true) (ty : Ty) (u : Val)
    (log log1 log2 : List LogEntry) (t : List Ch) (o1 o2 : Option (Val × List Ch))
    (h1 : GivesSk env S p ty u log t o1 log1) (h2 : GivesSk env S p ty u log t o2 log2) :
    o1.map Prod.fst = o2.map Prod.fst ∧ log1 = log2 := by
  have key : ∀ {r1 r2 v1 v2 rest1 rest2}, Alone env (.withSkipper p (.char S)) ty u log t r1 v1 log1 rest1 →
      Alone env (.withSkipper p (.char S)) ty u log t r2 v2 log2 rest2 → r1 = r2 ∧ v1 = v2 ∧ log1 = log2 := by
    rintro r1 r2 v1 v2 rest1 rest2 ⟨m1, a1, b1, c1⟩ ⟨m2, a2, b2, c2⟩
    cases a1.1.unique a2.1
    rw [b1] at b2
    cases b2
    exact ⟨rfl, rfl, c1.symm.trans c2⟩
  match o1, o2, h1, h2 with
  | none, none, h1, h2 =>
    obtain ⟨_, _, s1⟩ := C77_no_match_partial env _ S (charSkipper S) he henv p hq hp ty u log log1 t h1
    obtain ⟨_, _, s2⟩ := C77_no_match_partial env _ S (charSkipper S) he henv p hq hp ty u log log2 t h2
    exact ⟨rfl, (key s1 s2).2.2⟩
  | none, some (_, _), h1, h2 =>
    obtain ⟨_, _, s1⟩ := C77_no_match_partial env _ S (charSkipper S) he henv p hq hp ty u log log1 t h1
    obtain ⟨_, s2, _⟩ := C77_match_value_partial env _ S (charSkipper S) he henv p hq hp ty u _ log log2 t _ h2
    exact nomatch (key s1 s2).1
  | some (_, _), none, h1, h2 =>
    obtain ⟨_, s1, _⟩ := C77_match_value_partial env _ S (charSkipper S) he henv p hq hp ty u _ log log1 t _ h1
    obtain ⟨_, _, s2⟩ := C77_no_match_partial env _ S (charSkipper S) he henv p hq hp ty u log log2 t h2
    exact nomatch (key s1 s2).1
  | some (_, _), some (_, _), h1, h2 =>
    obtain ⟨_, s1, _⟩ := C77_match_value_partial env _ S (charSkipper S) he henv p hq hp ty u _ log log1 t _ h1
    obtain ⟨_, s2, _⟩ := C77_match_value_partial env _ S (charSkipper S) he henv p hq hp ty u _ log log2 t _ h2
    obtain ⟨_, rfl, h⟩ := key s1 s2
    exact ⟨rfl, h⟩

/-! ### Binary trees, with blanks between the words -/

theorem skipped_gap {S : CharSet} {g t : List Ch} (h : ∀ c ∈ g, S.isValid c = true) : skipped S (g ++ t) = skipped S t := by
  induction g with
  | nil => rfl
  | cons c g ih =>
    unfold skipped at ih ⊢
    rw [List.cons_append, List.dropWhile_cons, if_pos (h c (by simp))]
    exact ih fun c hc => h c (by simp [hc])

theorem skipped_here {S : CharSet} {c : Ch} {t : List Ch} (h : S.isValid c = false) : skipped S (c :: t) = c :: t := by
  unfold skipped
  rw [List.dropWhile_cons, if_neg (by simp [h])]

theorem gives_sk_lit {env : Env} {S : CharSet} {c : Ch} {log : List LogEntry} {g rest : List Ch}
    (hc : S.isValid c = false) (hg : ∀ c ∈ g, S.isValid c = true) :
    GivesSkNil env S (litC c) log (g ++ c :: rest) (some rest) log := by
  refine .discard (.token rfl ?_)
  rw [skipped_gap hg, skipped_here hc]
  exact .bare rfl ⟨1, .char (t := c :: rest) rfl (by simp [charP, CharSet.isValid]), rfl⟩

theorem gives_sk_lit_no {env : Env} {S : CharSet} {c d : Ch} {log : List LogEntry} {g rest : List Ch}
    (hd : S.isValid d = false) (hg : ∀ c ∈ g, S.isValid c = true) (h : d ≠ c) :
    GivesSkNil env S (litC c) log (g ++ d :: rest) none log := by
  refine .discard (.token rfl ?_)
  rw [skipped_gap hg, skipped_here hd]
  refine .bare rfl (.charNo ?_)
  rintro x hx
  cases hx
  simpa [charP, CharSet.isValid] using h

/-- As `gives_written`, whatever follows unless it is a digit. -/
theorem gives_number {env : Env} {k : NumKind} (hk : k ≠ .signed 0) {n : Int} (h1 : k.inRange n)
    (h2 : k.inRange n.natAbs) {u : Val} {log : List LogEntry} {rest : List Ch} (hr : NoDigitNext 10 rest) :
    Gives env int_ (.num k) u log (written n ++ rest) (some (.num n, rest)) log := by
  obtain ⟨rs, hd, hp, hne⟩ := decimal_digits n.natAbs
  have hlen : 1 ≤ (decimal n.natAbs).length := by
    cases h : decimal n.natAbs with
    | nil => exact absurd h hne
    | cons a l => simp
  have hrun : LongestRun 10 0 (decimal n.natAbs) rs rest := ⟨hd, fun h => absurd rfl h, .inr hr⟩
  have hs : ∃ sg neg, Sign sg neg ∧ written n = sg ++ decimal n.natAbs ∧
      withSign neg n.natAbs = n := by
    unfold written
    split
    · exact ⟨[45], true, .minus, rfl, by simp only [withSign, if_true]; omega⟩
    · exact ⟨[], false, .none, rfl, by
        simp only [withSign, Bool.false_eq_true, if_false]; omega⟩
  obtain ⟨sg, neg, hsg, hw, hv⟩ := hs
  rw [hw, List.append_assoc]
  have := Gives.int (env := env) (B := 10) (mn := 1) (mx := 0) (k := k) (u := u) (log := log)
    (by decide) (by decide) hsg (ds := decimal n.natAbs) (rs := rs) (rest := rest) ?_ hrun hlen
    (by rw [hp, hv]; exact ⟨hk, h1⟩) (by rw [hp]; exact ⟨hk, h2⟩)
  · rw [hp, hv] at this
    exact this
  · intro _ x l h
    cases hdd : decimal n.natAbs with
    | nil => exact absurd hdd hne
    | cons y ys =>
      rw [hdd] at h
      cases h
      have := decimal_first _ _ _ hdd
      omega

theorem digit_plain {c : Ch} (h : c ∉ ([48, 49, 50, 51, 52, 53, 54, 55, 56, 57] : List Ch)) :
    ∀ r, r < 10 → ¬ IsDigitSymbol r c := by
  intro r hr h2
  have hr : r = 0 ∨ r = 1 ∨ r = 2 ∨ r = 3 ∨ r = 4 ∨ r = 5 ∨ r = 6 ∨ r = 7 ∨ r = 8 ∨ r = 9 := by omega
  apply h
  rcases h2 with ⟨_, h⟩ | ⟨_, h⟩ <;>
    rcases hr with rfl | rfl | rfl | rfl | rfl | rfl | rfl | rfl | rfl | rfl <;> subst h <;> decide +revert

theorem apart_digit {S : CharSet} (hS : S.apart) {c : Ch} (h : S.isValid c = true) :
    c ∉ ([48, 49, 50, 51, 52, 53, 54, 55, 56, 57] : List Ch) := by
  intro hc
  have := hS c (by simp at hc ⊢; omega)
  rw [this] at h
  cases h

theorem skipped_written {S : CharSet} (hS : S.apart) (n : Int) (t : List Ch) : skipped S (written n ++ t) = written n ++ t := by
  unfold written
  split
  · exact skipped_here (hS 45 (by simp))
  · cases h : decimal n.natAbs with
    | nil => exact absurd h (decimal_digits _).choose_spec.2.2
    | cons c l =>
      have := decimal_first _ _ _ h
      exact skipped_here (hS c (by simp; omega))

theorem Spread.uncons {S : CharSet} {w : List Ch} {ws : List (List Ch)} {t : List Ch} (h : Spread S (w :: ws) t) :
    ∃ g t', (∀ c ∈ g, S.isValid c = true) ∧ t = g ++ (w ++ t') ∧ Spread S ws t' := by
  cases h with
  | cons hg h => exact ⟨_, _, hg, rfl, h⟩

theorem Spread.split {S : CharSet} {ws vs : List (List Ch)} {t : List Ch} (h : Spread S (ws ++ vs) t) :
    ∃ t1 t2, t = t1 ++ t2 ∧ Spread S ws t1 ∧ Spread S vs t2 := by
  induction ws generalizing t with
  | nil => exact ⟨[], t, rfl, .nil, h⟩
  | cons w ws ih =>
    cases h with
    | cons hg h =>
      obtain ⟨t1, t2, rfl, h1, h2⟩ := ih h
      exact ⟨_, t2, by simp, .cons hg h1, h2⟩

theorem Tree.tokens_cons (x : Tree) : ∃ c ws, x.tokens = [c] :: ws ∧ (c = 35 ∨ c = 40) := by
  cases x with
  | leaf n => exact ⟨_, _, rfl, .inl rfl⟩
  | node l r => exact ⟨_, _, rfl, .inr rfl⟩

theorem gives_sk_tree {S : CharSet} (hS : S.apart) {k : NumKind} (hk : k ≠ .signed 0) {log : List LogEntry} :
    ∀ (x : Tree), x.Fit k → ∀ (u : Val) (s rest : List Ch), Spread S x.tokens s → (∀ c ∈ s, IsChar c) →
      GivesSk (treeEnv k) S treePat (.user 7) u log (s ++ rest) (some (x.value, rest)) log
  | .leaf n, h, u, s, rest, hs, hc => by
    cases hs with
    | @cons g1 _ _ _ hg1 hs =>
    cases hs with
    | @cons g2 _ _ _ hg2 hs =>
    cases hs with
    | @cons g3 _ _ _ hg3 hs =>
    cases hs
    refine .recur (q := .alt [leafPat k, nodePat]) rfl ?_
    refine .alt (ps := []) (.inl (by simp)) .nil ?_
    refine .construct (args := [.num n]) ?_ .object
    refine .seq (by simp) (by simp) ?_
    simp only [List.append_assoc, List.cons_append, List.nil_append]
    refine .ignore rfl (gives_sk_lit (hS _ (by simp)) hg1) (.value rfl (.token rfl ?_)
      (.ignore rfl (gives_sk_lit (hS _ (by simp)) hg3) .nil))
    rw [skipped_gap hg2, skipped_written hS]
    refine gives_number hk h.1 h.2 ?_
    intro c t' e
    cases g3 with
    | nil => cases e; exact ⟨by decide, digit_plain (by simp)⟩
    | cons d g =>
      cases e
      exact ⟨hc _ (by simp), digit_plain (apart_digit hS (hg3 _ (by simp)))⟩
  | .node l r, h, u, s, rest, hs, hc => by
    obtain ⟨g1, s1, hg1, rfl, hs1⟩ := Spread.uncons (w := [40]) (ws := l.tokens ++ (r.tokens ++ [[41]])) hs
    obtain ⟨s1, s2, rfl, hl, hs2⟩ := hs1.split (ws := l.tokens) (vs := r.tokens ++ [[41]])
    obtain ⟨s2, s3, rfl, hr, hs3⟩ := hs2.split (ws := r.tokens) (vs := [[41]])
    cases hs3 with
    | @cons g3 _ _ _ hg3 hs4 =>
    cases hs4
    refine .recur (q := .alt [leafPat k, nodePat]) rfl ?_
    simp only [List.append_assoc, List.cons_append, List.nil_append]
    refine .alt (ps := [leafPat k]) (qs := []) (log1 := log) (.inl (by simp [leafPat, Pat.traceless]))
      (.cons (.constructNo (.seqNo (by simp) (by simp) ?_)) .nil) ?_
    · exact .ignoreNo rfl (gives_sk_lit_no (hS _ (by simp)) hg1 (by decide))
    · refine .construct (args := [l.value, r.value]) ?_ .object
      refine .seq (by simp) (by simp) ?_
      exact .ignore rfl (gives_sk_lit (hS _ (by simp)) hg1)
        (.value rfl (gives_sk_tree hS hk l h.1 _ _ _ hl fun c h => hc c (by simp [h]))
        (.value rfl (gives_sk_tree hS hk r h.2 _ _ _ hr fun c h => hc c (by simp [h]))
        (.ignore rfl (gives_sk_lit (hS _ (by simp)) hg3) .nil)))

/-- C77: every binary tree is read back from its notation with any characters that are skipped
between the words, however deep, whatever follows; under every delivery schedule. -/
theorem C77_spaced_trees_round_trip (sk : Pat) (S : CharSet) (hsk : sk.SkipsSet S) (hS : S.apart) (k : NumKind) (hk : k ≠ .signed 0) (x : Tree)
    (hx : x.Fit k) (u : Val) (log : List LogEntry) (s rest : List Ch) (hs : Spread S x.tokens s)
    (hc : ∀ c ∈ s, IsChar c) :
    ∃ rest', Alone (treeEnv k) (.withSkipper treePat sk) (.user 7) u log (s ++ rest) .SUCCESS x.value log rest' ∧
      skipped S rest' = skipped S rest := by
  refine C77_match_value_partial (treeEnv k) sk S hsk ?_ ?_ treePat rfl rfl _ _ _ _ _ _ _
    (gives_sk_tree hS hk x hx u s rest hs hc)
  · intro id q h
    simp only [treeEnv] at h
    split at h
    · cases h; rfl
    · cases h
  · intro id q h
    simp only [treeEnv] at h
    split at h
    · cases h; rfl
    · cases h

/-- " ( #1 ;#2; )", with blanks skipped -/
example : CharSet.apart (.single 32) ∧ Tree.Fit (.signed 32) (.node (.leaf 1) (.leaf 2)) ∧
    Spread (.single 32) (Tree.tokens (.node (.leaf 1) (.leaf 2))) [32, 40, 32, 35, 49, 32, 59, 35, 50, 59, 32, 41] := by
  refine ⟨by unfold CharSet.apart; decide, by simp only [Tree.Fit]; decide, ?_⟩
  have hb : ∀ c ∈ ([32] : List Ch), (CharSet.single 32).isValid c = true := by decide
  have hn : ∀ c ∈ ([] : List Ch), (CharSet.single 32).isValid c = true := by decide
  have h1 : written 1 = [49] := by simp [written, decimal]
  have h2 : written 2 = [50] := by simp [written, decimal]
  simp only [Tree.tokens, h1, h2]
  exact .cons (g := [32]) hb (.cons (g := [32]) hb (.cons (g := []) hn (.cons (g := [32]) hb (.cons (g := []) hn
    (.cons (g := []) hn (.cons (g := []) hn (.cons (g := [32]) hb .nil)))))))

/-- `lit(' ') | lexeme(char_('\t'))` skips blanks and tabs -/
theorem blanksAndTabs : Pat.SkipsSet (.alt [litC 32, .lexeme (charP 9)]) (.delegated fun c => c == 32 || c == 9) :=
  ⟨rfl, fun c => by simp [Pat.takes, Pat.anyTakes, litC, charP, CharSet.isValid]⟩

/-- "\t ( #1 ;#2; )" with it, and "!" after it -/
example : ∃ rest', Alone (treeEnv (.signed 32)) (.withSkipper treePat (.alt [litC 32, .lexeme (charP 9)])) (.user 7)
    (.num 0) [] ([9, 32, 40, 32, 35, 49, 32, 59, 35, 50, 59, 32, 41] ++ [33]) .SUCCESS
    (Tree.value (.node (.leaf 1) (.leaf 2))) [] rest' ∧
    skipped (.delegated fun c => c == 32 || c == 9) rest' = [33] := by
  refine C77_spaced_trees_round_trip _ _ blanksAndTabs (by unfold CharSet.apart; decide) _ (by decide) _
    (by simp only [Tree.Fit]; decide) _ _ _ [33] ?_ (by decide)
  have hb : ∀ c ∈ ([9, 32] : List Ch), (CharSet.delegated fun c => c == 32 || c == 9).isValid c = true := by decide
  have h0 : ∀ c ∈ ([32] : List Ch), (CharSet.delegated fun c => c == 32 || c == 9).isValid c = true := by decide
  have hn : ∀ c ∈ ([] : List Ch), (CharSet.delegated fun c => c == 32 || c == 9).isValid c = true := by decide
  have h1 : written 1 = [49] := by simp [written, decimal]
  have h2 : written 2 = [50] := by simp [written, decimal]
  simp only [Tree.tokens, h1, h2]
  exact .cons (g := [9, 32]) hb (.cons (g := [32]) h0 (.cons (g := []) hn (.cons (g := [32]) h0 (.cons (g := []) hn
    (.cons (g := []) hn (.cons (g := []) hn (.cons (g := [32]) h0 .nil)))))))

/-! ### Examples -/

theorem gives_sk_a {log : List LogEntry} {u : Val} {g rest : List Ch} (hg : ∀ c ∈ g, (CharSet.single 32).isValid c = true) :
    GivesSk noEnv (.single 32) (charP 97) .char u log (g ++ 97 :: rest) (some (.num 97, rest)) log := by
  refine .token rfl ?_
  rw [skipped_gap hg, skipped_here (by decide)]
  exact gives_a

/-- `uint_ >> lit(':') >> +char_('a')` with blanks skipped, on " 9: a a,": the number 9 and "aa" -/
theorem gives_sk_entry :
    GivesSk noEnv (.single 32) entryPat entryTy entryTy.defaultInit [] [32, 57, 58, 32, 97, 32, 97, 44]
      (some (.tup [.num 9, .coll [.num 97, .num 97]], [44])) [] := by
  have hb : ∀ c ∈ ([32] : List Ch), (CharSet.single 32).isValid c = true := by decide
  have hn : ∀ c ∈ ([] : List Ch), (CharSet.single 32).isValid c = true := by decide
  refine .seq (by simp) (by simp [Ty.unsigned, Ty.string]) ?_
  refine .value (log1 := []) (t1 := [58, 32, 97, 32, 97, 44]) rfl (.token rfl ?_) (.ignore rfl (gives_sk_lit (g := []) (by decide) hn) ?_)
  · refine .uint (ds := [57]) (rs := [9]) (by decide) (by decide) ⟨.cons (by decide) (isDigitSymbol_decimal 9 (by decide)) .nil,
      fun h => absurd rfl h, .inr ?_⟩ (by decide) ?_
    · intro c t h
      cases h
      exact ⟨by decide, digit_plain (by simp)⟩
    · simp [positional, Ty.Holds]; decide
  · refine .value (v := .coll []) (ws := []) rfl ?_ .nil
    refine .rep (us := []) (vs := [.num 97, .num 97]) (log1 := []) rfl (by simp [Ty.char]) (by simp [Ty.char]) (.inl rfl)
      (.cons (gives_sk_a (g := [32]) hb) (by simp [Ty.char, Ty.Holds]; decide)
        (.cons (gives_sk_a (g := [32]) hb) (by simp [Ty.char, Ty.Holds]; decide) .nil)) (by decide) (.inl rfl)
      (.token rfl (.charNo (by
        rw [skipped_here (by decide)]
        intro c rest hc
        cases hc
        rfl)))

example : ∃ rest', Alone noEnv (.withSkipper entryPat (.char (.single 32))) entryTy entryTy.defaultInit []
    [32, 57, 58, 32, 97, 32, 97, 44] .SUCCESS (.tup [.num 9, .coll [.num 97, .num 97]]) [] rest' ∧
    skipped (.single 32) rest' = [44] :=
  C77_match_value_partial noEnv _ _ (charSkipper _) (by intro id q h; cases h) (by intro id q h; cases h) _ rfl (by decide) _ _ _ _ _ _ _
    gives_sk_entry

/-- it has no other value -/
example {o log'} (h : GivesSk noEnv (.single 32) entryPat entryTy entryTy.defaultInit []
    [32, 57, 58, 32, 97, 32, 97, 44] o log') :
    some (.tup [.num 9, .coll [.num 97, .num 97]]) = o.map Prod.fst ∧ [] = log' :=
  C77_one_value_partial noEnv _ (by intro id q h; cases h) (by intro id q h; cases h) _ rfl (by decide) _ _ _ _ _ _ _ _
    gives_sk_entry h

/-- `char_('a')[next] >> lit(':')` on " a ,": no match, and yet the action was called -/
example : ∃ v rest, Alone noEnv (.withSkipper (.seq [.action nextAct (charP 97), litC 58]) (.char (.single 32))) .char
    (.num 0) [] [32, 97, 32, 44] .FAILURE v [⟨5, .num 97⟩] rest := by
  have hb : ∀ c ∈ ([32] : List Ch), (CharSet.single 32).isValid c = true := by decide
  refine C77_no_match_partial noEnv _ _ (charSkipper _) (by intro id q h; cases h) (by intro id q h; cases h) _ rfl (by decide)
    _ _ _ _ _ ?_
  refine .seqIntoNo (by simp) (by simp [Ty.char]) (.value (v := .num 98) (t1 := [32, 44]) rfl ?_
    (.ignoreNo rfl (gives_sk_lit_no (g := [32]) (by decide) hb (by decide))))
  exact .action (v := .num 97) (log' := []) rfl rfl (.value (by simp [nextAct, Ty.char]) (gives_sk_a (g := [32]) hb)) (by simp)
    (.value (by simp [Ty.char]) (by simp [nextAct, Ty.char, Ty.Holds]; decide))

/-- `lit(':') >> char_('a')[next]` without a destination, on ": a" -/
example : ∃ rest', AloneNil noEnv (.withSkipper (.seq [litC 58, .action nextAct (charP 97)]) (.char (.single 32))) []
    [58, 32, 97] .SUCCESS [⟨5, .num 97⟩] rest' ∧ skipped (.single 32) rest' = [] := by
  have hb : ∀ c ∈ ([32] : List Ch), (CharSet.single 32).isValid c = true := by decide
  refine C77_calls_without_destination_partial noEnv _ _ (charSkipper _) (by intro id q h; cases h) (by intro id q h; cases h) _ rfl (by decide)
    _ _ _ [] ?_
  exact .seq (by simp) (.cons (gives_sk_lit (g := []) (by decide) (by simp)) (.cons (.action (log' := []) rfl
    (.value (by simp [nextAct, Ty.char]) (gives_sk_a (g := [32]) hb)) (by simp)) .nil))

end Abu
