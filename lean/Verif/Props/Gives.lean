import Verif.Proofs.GivesRun
import Verif.Spec.Tree
/-
C76: the values a grammar computes.
-/
namespace Abu

/-- C76 (partial: tidy patterns; actions without `ActionParam` that do not throw; the rules of
`Gives` for alternatives, optional parts, repetitions and lists ask for operands that give one
value): when the grammar gives the value `u'`, every parser for it succeeds, leaves `u'` in the
destination, has made these calls of actions and left the same text unread; under every delivery
schedule. -/
theorem C76_match_value_partial (env : Env) (els elf : Stale) (he : env.quiet)
    (henv : env.tidy false els elf) (p : Pat) (hq : p.quiet = true)
    (hp : p.tidy false els elf false .any .any = true) (ty : Ty) (u u' : Val)
    (log log' : List LogEntry) (t rest : List Ch)
    (h : Gives env p ty u log t (some (u', rest)) log') :
    Alone env p ty u log t .SUCCESS u' log' rest :=
  Gives.solo he henv h hq hp

/-- C76 (partial: likewise): when the grammar gives no value, every parser for it fails, and has
made these calls of actions. Nothing is said about the destination or the text left unread. -/
theorem C76_no_match_partial (env : Env) (els elf : Stale) (he : env.quiet)
    (henv : env.tidy false els elf) (p : Pat) (hq : p.quiet = true)
    (hp : p.tidy false els elf false .any .any = true) (ty : Ty) (u : Val)
    (log log' : List LogEntry) (t : List Ch) (h : Gives env p ty u log t none log') :
    ∃ v rest, Alone env p ty u log t .FAILURE v log' rest :=
  Gives.solo he henv h hq hp

/-- C76 (partial: likewise): without a destination. -/
theorem C76_calls_without_destination_partial (env : Env) (els elf : Stale) (he : env.quiet)
    (henv : env.tidy false els elf) (p : Pat) (hq : p.quiet = true)
    (hp : p.tidy false els elf false .any .any = true) (log log' : List LogEntry) (t rest : List Ch)
    (h : GivesNil env p log t (some rest) log') : AloneNil env p log t .SUCCESS log' rest :=
  GivesNil.solo he henv h hq hp

/-- C76 (partial: likewise): a grammar gives at most one value for a text. -/
theorem C76_one_value_partial (env : Env) (els elf : Stale) (he : env.quiet)
    (henv : env.tidy false els elf) (p : Pat) (hq : p.quiet = true)
    (hp : p.tidy false els elf false .any .any = true) (ty : Ty) (u : Val)
    (log log1 log2 : List LogEntry) (t : List Ch) (o1 o2 : Option (Val × List Ch))
    (h1 : Gives env p ty u log t o1 log1) (h2 : Gives env p ty u log t o2 log2) :
    o1 = o2 ∧ log1 = log2 := by
  have s1 := Gives.solo he henv h1 hq hp
  have s2 := Gives.solo he henv h2 hq hp
  have key : ∀ {r1 r2 v1 v2 rest1 rest2}, Alone env p ty u log t r1 v1 log1 rest1 →
      Alone env p ty u log t r2 v2 log2 rest2 → r1 = r2 ∧ v1 = v2 ∧ rest1 = rest2 ∧ log1 = log2 := by
    rintro r1 r2 v1 v2 rest1 rest2 ⟨m1, a1, b1, c1⟩ ⟨m2, a2, b2, c2⟩
    cases a1.1.unique a2.1
    rw [b1] at b2
    cases b2
    exact ⟨rfl, rfl, rfl, c1.symm.trans c2⟩
  match o1, o2, s1, s2 with
  | none, none, ⟨_, _, s1⟩, ⟨_, _, s2⟩ => exact ⟨rfl, (key s1 s2).2.2.2⟩
  | none, some (_, _), ⟨_, _, s1⟩, s2 => exact nomatch (key s1 s2).1
  | some (_, _), none, s1, ⟨_, _, s2⟩ => exact nomatch (key s1 s2).1
  | some (_, _), some (_, _), s1, s2 =>
    obtain ⟨_, rfl, rfl, h⟩ := key s1 s2
    exact ⟨rfl, h⟩

/-! ### Binary trees -/

/-- a leaf: `(lit('#') >> int_ >> lit(';')).as<Tree>()` -/
def leafPat (k : NumKind) : Pat := .construct [.num k] (.seq [litC 35, int_, litC 59])
/-- a node: `(lit('(') >> tree >> tree >> lit(')')).as<Tree>()` -/
def nodePat : Pat :=
  .construct [.user 7, .user 7] (.seq [litC 40, .recur 0 false, .recur 0 false, litC 41])
/-- `tree`, a `Recur` object that stands for `leaf | node` -/
def treeEnv (k : NumKind) : Env := fun id => if id = 0 then some (.alt [leafPat k, nodePat]) else none
def treePat : Pat := .recur 0 false

theorem gives_lit {env : Env} {c : Ch} {log : List LogEntry} {rest : List Ch} :
    GivesNil env (litC c) log (c :: rest) (some rest) log :=
  .bare rfl ⟨1, .discard (.char (t := c :: rest) rfl (by simp [charP, CharSet.isValid])), rfl⟩

theorem gives_lit_no {env : Env} {c d : Ch} {log : List LogEntry} {rest : List Ch} (h : d ≠ c) :
    GivesNil env (litC c) log (d :: rest) none log :=
  .bare rfl (.discard (.charNo (by
    rintro x hx
    cases hx
    simpa [charP, CharSet.isValid] using h)))

theorem gives_written {env : Env} {k : NumKind} (hk : k ≠ .signed 0) {n : Int} (h1 : k.inRange n)
    (h2 : k.inRange n.natAbs) {u : Val} {log : List LogEntry} {rest : List Ch} :
    Gives env int_ (.num k) u log (written n ++ 59 :: rest) (some (.num n, 59 :: rest)) log := by
  obtain ⟨rs, hd, hp, hne⟩ := decimal_digits n.natAbs
  have hlen : 1 ≤ (decimal n.natAbs).length := by
    cases h : decimal n.natAbs with
    | nil => exact absurd h hne
    | cons a l => simp
  have h59 : ∀ r, r < 10 → ¬ IsDigitSymbol r 59 := by
    intro r hr h
    have hr : r = 0 ∨ r = 1 ∨ r = 2 ∨ r = 3 ∨ r = 4 ∨ r = 5 ∨ r = 6 ∨ r = 7 ∨ r = 8 ∨ r = 9 := by omega
    rcases h with ⟨_, h⟩ | ⟨_, h⟩ <;>
      rcases hr with rfl | rfl | rfl | rfl | rfl | rfl | rfl | rfl | rfl | rfl <;> cases h
  have hrun : LongestRun 10 0 (decimal n.natAbs) rs (59 :: rest) :=
    ⟨hd, fun h => absurd rfl h, .inr fun c' t' h => by cases h; exact ⟨by decide, h59⟩⟩
  have hs : ∃ sg neg, Sign sg neg ∧ written n = sg ++ decimal n.natAbs ∧
      withSign neg n.natAbs = n := by
    unfold written
    split
    · exact ⟨[45], true, .minus, rfl, by simp only [withSign, if_true]; omega⟩
    · exact ⟨[], false, .none, rfl, by
        simp only [withSign, Bool.false_eq_true, if_false]; omega⟩
  obtain ⟨sg, neg, hsg, hw, hv⟩ := hs
  rw [hw, List.append_assoc]
  have := Gives.int (env := env) (B := 10) (mn := 1) (mx := 0) (k := k) (u := u) (log := log)
    (by decide) (by decide) hsg (ds := decimal n.natAbs) (rs := rs) (rest := 59 :: rest) ?_ hrun hlen
    (by rw [hp, hv]; exact ⟨hk, h1⟩) (by rw [hp]; exact ⟨hk, h2⟩)
  · rw [hp, hv] at this
    exact this
  · intro _ x l h
    cases hdd : decimal n.natAbs with
    | nil => exact absurd hdd hne
    | cons y ys =>
      rw [hdd] at h
      cases h
      have := decimal_first _ _ _ hdd
      omega

theorem gives_tree {k : NumKind} (hk : k ≠ .signed 0) {log : List LogEntry} :
    ∀ (x : Tree), x.Fit k → ∀ (u : Val) (rest : List Ch),
      Gives (treeEnv k) treePat (.user 7) u log (x.text ++ rest) (some (x.value, rest)) log
  | .leaf n, h, u, rest => by
    refine .recur (q := .alt [leafPat k, nodePat]) rfl ?_
    refine .alt (ps := []) (.inl (by simp)) .nil (by simp) ?_
    refine .construct (args := [.num n]) ?_ .object
    refine .seq (by simp) (by simp) ?_
    simp only [Tree.text, List.cons_append, List.append_assoc]
    exact .ignore rfl gives_lit (.value rfl (gives_written hk h.1 h.2) (.ignore rfl gives_lit .nil))
  | .node l r, h, u, rest => by
    refine .recur (q := .alt [leafPat k, nodePat]) rfl ?_
    refine .alt (ps := [leafPat k]) (qs := []) (log1 := log) (.inl (by simp [leafPat, Pat.traceless]))
      (.cons (.constructNo (.seqNo (by simp) (by simp) ?_)) .nil) (by simp) ?_
    · exact .ignoreNo rfl (gives_lit_no (by decide))
    · refine .construct (args := [l.value, r.value]) ?_ .object
      refine .seq (by simp) (by simp) ?_
      simp only [Tree.text, List.cons_append, List.append_assoc]
      exact .ignore rfl gives_lit (.value rfl (gives_tree hk l h.1 _ _)
        (.value rfl (gives_tree hk r h.2 _ _) (.ignore rfl gives_lit .nil)))

/-- C76: every binary tree is read back from its notation, however deep, by the recursive grammar
`tree = ('#' >> int_ >> ';').as<Tree>() | ('(' >> tree >> tree >> ')').as<Tree>()`, whatever
follows; under every delivery schedule. The integer type has to hold the leaves and their absolute
values. -/
theorem C76_trees_round_trip (k : NumKind) (hk : k ≠ .signed 0) (x : Tree) (hx : x.Fit k) (u : Val)
    (log : List LogEntry) (rest : List Ch) :
    Alone (treeEnv k) treePat (.user 7) u log (x.text ++ rest) .SUCCESS x.value log rest := by
  refine C76_match_value_partial (treeEnv k) .none .none ?_ ?_ treePat rfl rfl _ _ _ _ _ _ _
    (gives_tree hk x hx u rest)
  · intro id q h
    simp only [treeEnv] at h
    split at h
    · cases h; rfl
    · cases h
  · intro id q h
    simp only [treeEnv] at h
    split at h
    · cases h; rfl
    · cases h

/-- "(#1;(#-2;#3;))" for a 32 bit `int` -/
example : Tree.text (.node (.leaf 1) (.node (.leaf (-2)) (.leaf 3))) =
    [40, 35, 49, 59, 40, 35, 45, 50, 59, 35, 51, 59, 41, 41] ∧
    Tree.Fit (.signed 32) (.node (.leaf 1) (.node (.leaf (-2)) (.leaf 3))) := by
  constructor
  · simp [Tree.text, written, decimal]
  · simp only [Tree.Fit]
    decide

/-! ### Examples -/

/-- `uint_ >> lit(':') >> +char_('a')` -/
def entryPat : Pat := .seq [uint_, litC 58, .rep 1 0 (charP 97)]
def entryTy : Ty := .tup [.unsigned, .string]

theorem digit_nine : LongestRun 10 0 [57] [9] [58, 97, 44] :=
  ⟨.cons (by decide) (isDigitSymbol_decimal 9 (by decide)) .nil, fun h => absurd rfl h,
    .inr fun c t h => by
      cases h
      refine ⟨by decide, fun r hr h => ?_⟩
      have hr : r = 0 ∨ r = 1 ∨ r = 2 ∨ r = 3 ∨ r = 4 ∨ r = 5 ∨ r = 6 ∨ r = 7 ∨ r = 8 ∨ r = 9 := by omega
      rcases h with ⟨_, h⟩ | ⟨_, h⟩ <;>
        rcases hr with rfl | rfl | rfl | rfl | rfl | rfl | rfl | rfl | rfl | rfl <;> cases h⟩

theorem gives_a {log : List LogEntry} {u : Val} {rest : List Ch} :
    Gives noEnv (charP 97) .char u log (97 :: rest) (some (.num 97, rest)) log :=
  .char rfl (.value (by simp [Ty.char]) (by simp [Ty.char, Ty.Holds]; decide))

/-- one entry, "9:a" -/
theorem gives_entry {log : List LogEntry} :
    Gives noEnv entryPat entryTy entryTy.defaultInit log [57, 58, 97, 44]
      (some (.tup [.num 9, .coll [.num 97]], [44])) log := by
  refine .seq (by simp) (by simp [Ty.unsigned, Ty.string]) ?_
  refine .value rfl (.uint (ds := [57]) (by decide) (by decide) digit_nine (by decide) ?_) (.ignore rfl gives_lit ?_)
  · simp [positional, Ty.Holds]; decide
  · refine .value (v := .coll []) (ws := []) rfl ?_ .nil
    exact .rep (us := []) (vs := [.num 97]) rfl (by simp [Ty.char]) (by simp [Ty.char]) (.inl rfl)
      (.cons gives_a (by simp [Ty.char, Ty.Holds]; decide) .nil) (by decide) (.inl rfl)
      (.charNo (by rintro c rest ⟨⟩; rfl))

/-- `(uint_ >> lit(':') >> +char_('a')) % lit(',')` on "9:a,", into an empty
`vector<tuple<unsigned, string>>` -/
example : Alone noEnv (.list entryPat (litC 44)) (.coll entryTy) (.coll []) [] [57, 58, 97, 44] .SUCCESS
    (.coll [.tup [.num 9, .coll [.num 97]]]) [] [44] := by
  refine C76_match_value_partial noEnv .none .none (by intro id q h; cases h) noEnv_tidy _ rfl (by decide)
    _ _ _ _ _ _ _ ?_
  refine .listItem (us := []) (vs := []) (log2 := []) rfl (by simp [entryTy]) (by simp [entryPat, Pat.assigns])
    gives_entry trivial .nil gives_lit ?_
  refine .seqNo (by simp) (by simp [Ty.unsigned, Ty.string]) (.valueNo rfl ?_)
  exact .uintNo (ds := []) (rs := []) (by decide) (by decide) ⟨.nil, fun h => absurd rfl h, .inr (by rintro c t ⟨⟩)⟩
    (by decide) (by simp [positional, Ty.Holds]; decide)

/-- `[](char c) -> char { return c + 1; }` -/
def nextAct : Act := ⟨5, .char, false, false, fun _ v b => ((match v with | .num i => .num (i + 1) | v => v), b)⟩

/-- `(char_('a')[next] >> lit(':'))` on "a,": no match, and yet the action was called -/
example : ∃ v rest, Alone noEnv (.seq [.action nextAct (charP 97), litC 58]) .char (.num 0) [] [97, 44]
    .FAILURE v [⟨5, .num 97⟩] rest := by
  refine C76_no_match_partial noEnv .none .none (by intro id q h; cases h) noEnv_tidy _ rfl (by decide)
    _ _ _ _ _ ?_
  refine .seqIntoNo (by simp) (by simp [Ty.char]) (.value (v := .num 98) (t1 := [44]) rfl ?_
    (.ignoreNo rfl (gives_lit_no (by decide))))
  exact .action (v := .num 97) (log' := []) rfl rfl (.value (by simp [nextAct, Ty.char]) gives_a) (by simp)
    (.value (by simp [Ty.char]) (by simp [nextAct, Ty.char, Ty.Holds]; decide))

/-- `char_('a')[next]` without a destination -/
example : AloneNil noEnv (.action nextAct (charP 97)) [] [97, 44] .SUCCESS [⟨5, .num 97⟩] [44] :=
  C76_calls_without_destination_partial noEnv .none .none (by intro id q h; cases h) noEnv_tidy _ rfl (by decide)
    _ _ _ _ (.action (log' := []) rfl (.value (by simp [nextAct, Ty.char]) gives_a) (by simp))

/-- "9:a," has no other value -/
example {o log'} (h : Gives noEnv entryPat entryTy entryTy.defaultInit [] [57, 58, 97, 44] o log') :
    some (.tup [.num 9, .coll [.num 97]], [44]) = o ∧ [] = log' :=
  C76_one_value_partial noEnv .none .none (by intro id q h; cases h) noEnv_tidy _ rfl (by decide) _ _ _ _ _ _ _ _
    gives_entry h

end Abu
