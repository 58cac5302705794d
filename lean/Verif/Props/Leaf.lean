import Verif.Proofs.Number
import Verif.Proofs.Trie
/-
C08 - C14: the leaf parsers.
-/
namespace Abu

/-- No `Recur` is used. -/
abbrev noRecur : Env := fun _ => none

theorem IsChar.holds {c : Ch} (h : IsChar c) : Ty.char.Holds (.num c) := by
  refine ⟨by simp, ?_⟩
  unfold IsChar at h
  constructor <;> simp <;> omega

/-! ### C08 -/

/-- C08: `char_(set)` takes a character of the set and stores it. -/
theorem C08_char_success (env : Env) (e : SetExpr) (he : e.Legal) (c : Ch) (hc : IsChar c)
    (hd : e.denotes c) (rest : List Ch) (dst : Ref) (m m' : Mem) (hm : Stores m dst (.num c) m') :
    Answers env (.char e.build) dst m (c :: rest) (.ok (.SUCCESS, m', rest)) :=
  .of_parses (Parses.of_run (i := 1) (S1 := []) rfl
    (run_char (c := c) rfl ((C06_char_sets_denote e he c hc).2 hd) hm.assign))

/-- C08: otherwise it fails and leaves everything as it was, also at the end of the text. -/
theorem C08_char_failure (env : Env) (e : SetExpr) (he : e.Legal) (t : List Ch)
    (ht : ∀ c rest, t = c :: rest → IsChar c ∧ ¬ e.denotes c) (dst : Ref) (m : Mem) :
    Answers env (.char e.build) dst m t (.ok (.FAILURE, m, t)) := by
  refine .of_parses (Parses.of_run (i := 0) (S1 := []) rfl (run_char_no ?_))
  intro c hc
  cases t with
  | nil => cases hc
  | cons d rest =>
    cases hc
    obtain ⟨h1, h2⟩ := ht _ rest rfl
    rw [← Bool.not_eq_true, C06_char_sets_denote e he _ h1]
    exact h2

/-- `char_` of anything but a comma, into a `std::string` holding "x". -/
example : Answers noRecur (.char (SetExpr.not (.single 44)).build) (.at 0 [] Ty.string)
    ⟨[.coll [.num 120]], []⟩ [97, 98] (.ok (.SUCCESS, ⟨[.coll [.num 120, .num 97]], []⟩, [98])) :=
  C08_char_success _ (.not (.single 44)) trivial 97 (by decide)
    (by show ¬ ((97 : Int) = 44); decide) [98] _ _ _
    (.element (m := ⟨[.coll [.num 120]], []⟩) (o := 0) (v := .num 97)
      (IsChar.holds (by decide)) rfl)
example : Answers noRecur (.char (SetExpr.not (.single 44)).build) (.at 0 [] Ty.char)
    ⟨[.num 120], []⟩ [44] (.ok (.FAILURE, ⟨[.num 120], []⟩, [44])) :=
  C08_char_failure _ (.not (.single 44)) trivial _
    (by rintro c r ⟨⟩; exact ⟨by decide, fun h => h rfl⟩) _ _

/-! ### C09 -/

/-- C09: `lit("s")` succeeds when the text continues with `s`, and takes exactly `s`. -/
theorem C09_literal_success (env : Env) (s rest : List Ch) (dst : Ref) (m : Mem) :
    Answers env (.strLit s) dst m (s ++ rest) (.ok (.SUCCESS, m, rest)) := by
  obtain ⟨f, st', i', h1, h2⟩ := run_strLit (env := env) (t := s ++ rest) (S := []) s dst dst s 0 0 m rfl
  have hp : s <+: (s ++ rest).drop 0 := by simp
  rw [if_pos hp, h2 hp, Nat.zero_add] at h1
  have := Answers.of_parses (Parses.of_run (p := .strLit s) (S1 := []) (m := m) rfl h1)
  rwa [List.drop_left] at this

/-- C09: and fails otherwise; nothing is ever written. -/
theorem C09_literal_failure (env : Env) (s t : List Ch) (h : ¬ s <+: t) (dst : Ref) (m : Mem) :
    ∃ rest, Answers env (.strLit s) dst m t (.ok (.FAILURE, m, rest)) := by
  obtain ⟨f, st', i', h1, h2⟩ := run_strLit (env := env) (t := t) (S := []) s dst dst s 0 0 m rfl
  rw [List.drop_zero, if_neg h] at h1
  exact ⟨_, .of_parses (Parses.of_run (p := .strLit s) (S1 := []) (m := m) rfl h1)⟩

/-- `lit("ab")` fed with "a", "b", "c" separately. -/
example : MakeParserRun noRecur (.strLit [97, 98]) .nil ⟨[], []⟩
    [.add [97] false, .consume, .add [98] false, .add [99] true, .consume]
    (.ok (.SUCCESS, ⟨[], []⟩, [99])) :=
  (C09_literal_success noRecur [97, 98] [99] .nil ⟨[], []⟩).2 _ ⟨trivial, rfl⟩ rfl

/-! ### C10 -/

/-- A destination `uint_` and `int_` compile with. -/
def Ref.scalar (dst : Ref) : Prop := ∀ o p t, dst ≠ .at o p (.coll t)

/-- C10, C11: the longest run of digits always exists. -/
theorem C10_longest_run_exists (B : Nat) : ∀ (mx : Nat) (t : List Ch), (∀ c ∈ t, IsChar c) →
    ∃ ds rs rest, t = ds ++ rest ∧ LongestRun B mx ds rs rest := by
  intro mx t
  induction t generalizing mx with
  | nil =>
    exact fun _ => ⟨[], [], [], rfl, .nil, fun _ => Nat.zero_le _, .inr fun c t' h => by cases h⟩
  | cons c t ih =>
    intro hc
    by_cases hd : ∃ r, r < B ∧ IsDigitSymbol r c
    · obtain ⟨r, hr, hs⟩ := hd
      by_cases h1 : mx = 1
      · subst h1
        exact ⟨[c], [r], t, rfl, .cons hr hs .nil, fun _ => Nat.le_refl _, .inl ⟨by simp, rfl⟩⟩
      · obtain ⟨ds, rs, rest, rfl, h2, h3, h4⟩ := ih (mx - 1) fun c h => hc c (by simp [h])
        refine ⟨c :: ds, r :: rs, rest, rfl, .cons hr hs h2, ?_, ?_⟩
        · intro h0; have := h3 (by omega); simp only [List.length_cons]; omega
        · rcases h4 with ⟨h4, h5⟩ | h4
          · exact .inl ⟨by omega, by simp only [List.length_cons]; omega⟩
          · exact .inr h4
    · refine ⟨[], [], c :: t, rfl, .nil, fun _ => Nat.zero_le _, .inr ?_⟩
      intro d t' h
      cases h
      exact ⟨hc c (by simp), fun r hr hs => hd ⟨r, hr, hs⟩⟩

/-- C10: with at least `MIN` digits `uint_` succeeds, consumes exactly the longest run of at most
`MAX` digits and stores its value (if it fits in the destination, see C12 for the rest). -/
theorem C10_uint_success (env : Env) (B mn mx : Nat) (h2 : 2 ≤ B) (h35 : B ≤ 35) (ds rest : List Ch)
    (rs : List Nat) (hrun : LongestRun B mx ds rs rest) (hmn : mn ≤ ds.length) (dst : Ref)
    (hd : dst.scalar) (m m' : Mem) (hm : Stores m dst (.num (positional B rs)) m') :
    Answers env (.uint B mn mx) dst m (ds ++ rest) (.ok (.SUCCESS, m', rest)) := by
  rw [← digitRes_ok (mx := mx) hmn]
  cases hm with
  | ignored => exact uint_answers_nil h2 h35 hrun
  | @value o ty v old hn hh ho =>
    cases ty with
    | num k =>
      have := uint_answers (env := env) (mn := mn) h2 h35 hrun (k := k)
        (List.getElem?_eq_some_iff.1 ho).1
      rw [show (0 : Int) = ((0 : Nat) : Int) from rfl, accums_fits hh.1 (by omega) rs 0 hh.2] at this
      exact this
    | _ => exact hh.elim
  | element => exact absurd rfl (hd _ _ _)

/-- C10: with less than `MIN` digits it fails. -/
theorem C10_uint_failure (env : Env) (B mn mx : Nat) (h2 : 2 ≤ B) (h35 : B ≤ 35)
    (hmx : mx = 0 ∨ mn ≤ mx) (ds rest : List Ch) (rs : List Nat)
    (hrun : LongestRun B mx ds rs rest) (hmn : ds.length < mn) (dst : Ref)
    (hd : dst.scalar) (m m' : Mem) (hm : Stores m dst (.num (positional B rs)) m') :
    Answers env (.uint B mn mx) dst m (ds ++ rest) (.ok (.FAILURE, m', rest)) := by
  rw [← digitRes_no hmn hmx]
  cases hm with
  | ignored => exact uint_answers_nil h2 h35 hrun
  | @value o ty v old hn hh ho =>
    cases ty with
    | num k =>
      have := uint_answers (env := env) (mn := mn) h2 h35 hrun (k := k)
        (List.getElem?_eq_some_iff.1 ho).1
      rw [show (0 : Int) = ((0 : Nat) : Int) from rfl, accums_fits hh.1 (by omega) rs 0 hh.2] at this
      exact this
    | _ => exact hh.elim
  | element => exact absurd rfl (hd _ _ _)

/-- `uint<16, 1, 2>` on "fF1" -/
example : Answers noRecur (.uint 16 1 2) (.at 0 [] .int) ⟨[.num 7], []⟩ [102, 70, 49]
    (.ok (.SUCCESS, ⟨[.num 255], []⟩, [49])) :=
  C10_uint_success _ 16 1 2 (by decide) (by decide) [102, 70] [49] [15, 15]
    ⟨.cons (by decide) (.inl ⟨by decide, rfl⟩) (.cons (by decide) (.inr ⟨by decide, rfl⟩) .nil),
      fun _ => by decide, .inl ⟨by decide, rfl⟩⟩
    (by decide) _ (by intro o p t h; cases h) _ _
    (.value (m := ⟨[.num 7], []⟩) (o := 0) (v := .num 255) (fun t h => by cases h)
      ⟨by simp, by decide⟩ rfl)
/-- `uint<10, 3>` on "12x" -/
example : Answers noRecur (.uint 10 3 0) (.at 0 [] .int) ⟨[.num 7], []⟩ [49, 50, 120]
    (.ok (.FAILURE, ⟨[.num 12], []⟩, [120])) :=
  C10_uint_failure _ 10 3 0 (by decide) (by decide) (.inl rfl) [49, 50] [120] [1, 2]
    ⟨.cons (by decide) (.inl ⟨by decide, rfl⟩) (.cons (by decide) (.inl ⟨by decide, rfl⟩) .nil),
      fun h => absurd rfl h, .inr (by
        rintro c t' ⟨⟩
        refine ⟨by decide, fun r hr h => ?_⟩
        rw [isDigitSymbol_iff r _ (by omega), if_pos (by omega)] at h
        omega)⟩
    (by decide) _ (by intro o p t h; cases h) _ _
    (.value (m := ⟨[.num 7], []⟩) (o := 0) (v := .num 12) (fun t h => by cases h)
      ⟨by simp, by decide⟩ rfl)

/-! ### C11 -/

theorem int_stores {env : Env} {B mn mx : Nat} (h2 : 2 ≤ B) (h35 : B ≤ 35) {sg neg}
    (hs : Sign sg neg) {ds rest rs} (hn : sg = [] → ∀ c l', ds ++ rest = c :: l' → c ≠ 43 ∧ c ≠ 45)
    (hrun : LongestRun B mx ds rs rest) {dst : Ref} (hd : dst.scalar) {m m' m1 : Mem}
    (hm : Stores m dst (.num (withSign neg (positional B rs))) m')
    (hfit : Stores m dst (.num (positional B rs)) m1) :
    Answers env (.int B mn mx) dst m (sg ++ (ds ++ rest))
      (.ok (digitRes mn mx 0 ds.length, m', rest)) := by
  cases hm with
  | ignored => exact int_answers_nil h2 h35 hs hn hrun
  | @value o ty v old hnc hh ho =>
    cases ty with
    | num k =>
      have := int_answers (env := env) (mn := mn) h2 h35 hs hn hrun (k := k)
        (List.getElem?_eq_some_iff.1 ho).1
      have hf : k.inRange (positional B rs) := by
        cases hfit with
        | value _ hh' _ => exact hh'.2
      rw [signed'_fits hh.1 (by omega) hf hh.2] at this
      exact this
    | _ => exact hh.elim
  | element => exact absurd rfl (hd _ _ _)

/-- C11: `int_` takes an optional sign, then as `uint_`; it stores the value with its sign, if
magnitude and value fit in the destination. -/
theorem C11_int_success (env : Env) (B mn mx : Nat) (h2 : 2 ≤ B) (h35 : B ≤ 35) (sg : List Ch)
    (neg : Bool) (hs : Sign sg neg) (ds rest : List Ch) (rs : List Nat)
    (hn : sg = [] → ∀ c l', ds ++ rest = c :: l' → c ≠ 43 ∧ c ≠ 45)
    (hrun : LongestRun B mx ds rs rest) (hmn : mn ≤ ds.length) (dst : Ref)
    (hd : dst.scalar) (m m' m1 : Mem)
    (hm : Stores m dst (.num (withSign neg (positional B rs))) m')
    (hfit : Stores m dst (.num (positional B rs)) m1) :
    Answers env (.int B mn mx) dst m (sg ++ (ds ++ rest)) (.ok (.SUCCESS, m', rest)) := by
  rw [← digitRes_ok (mx := mx) hmn]
  exact int_stores h2 h35 hs hn hrun hd hm hfit

/-- C11: with less than `MIN` digits it fails. -/
theorem C11_int_failure (env : Env) (B mn mx : Nat) (h2 : 2 ≤ B) (h35 : B ≤ 35)
    (hmx : mx = 0 ∨ mn ≤ mx) (sg : List Ch)
    (neg : Bool) (hs : Sign sg neg) (ds rest : List Ch) (rs : List Nat)
    (hn : sg = [] → ∀ c l', ds ++ rest = c :: l' → c ≠ 43 ∧ c ≠ 45)
    (hrun : LongestRun B mx ds rs rest) (hmn : ds.length < mn) (dst : Ref)
    (hd : dst.scalar) (m m' m1 : Mem)
    (hm : Stores m dst (.num (withSign neg (positional B rs))) m')
    (hfit : Stores m dst (.num (positional B rs)) m1) :
    Answers env (.int B mn mx) dst m (sg ++ (ds ++ rest)) (.ok (.FAILURE, m', rest)) := by
  rw [← digitRes_no hmn hmx]
  exact int_stores h2 h35 hs hn hrun hd hm hfit

/-- `int_` on "-12x" -/
example : Answers noRecur int_ (.at 0 [] .int) ⟨[.num 7], []⟩ [45, 49, 50, 120]
    (.ok (.SUCCESS, ⟨[.num (-12)], []⟩, [120])) :=
  C11_int_success _ 10 1 0 (by decide) (by decide) [45] true .minus [49, 50] [120] [1, 2]
    (by intro h; cases h)
    ⟨.cons (by decide) (.inl ⟨by decide, rfl⟩) (.cons (by decide) (.inl ⟨by decide, rfl⟩) .nil),
      fun h => absurd rfl h, .inr (by
        rintro c t' ⟨⟩
        refine ⟨by decide, fun r hr h => ?_⟩
        rw [isDigitSymbol_iff r _ (by omega), if_pos (by omega)] at h
        omega)⟩
    (by decide) _ (by intro o p t h; cases h) _ _ _
    (.value (m := ⟨[.num 7], []⟩) (o := 0) (v := .num (-12)) (fun t h => by cases h)
      ⟨by simp, by decide⟩ rfl)
    (.value (m := ⟨[.num 7], []⟩) (o := 0) (v := .num 12) (fun t h => by cases h)
      ⟨by simp, by decide⟩ rfl)

/-! ### C12 -/

/-- C12: an unsigned destination gets the value modulo `2 ^ w`. -/
theorem C12_unsigned_modulo (env : Env) (B mn mx : Nat) (h2 : 2 ≤ B) (h35 : B ≤ 35)
    (ds rest : List Ch) (rs : List Nat) (hrun : LongestRun B mx ds rs rest)
    (hmn : mn ≤ ds.length) (w o : Nat) (m : Mem) (ho : o < m.objs.length) :
    Answers env (.uint B mn mx) (.at o [] (.num (.unsigned w))) m (ds ++ rest)
      (.ok (.SUCCESS, ⟨m.objs.set o (.num ((positional B rs : Int) % 2 ^ w)), m.log⟩, rest)) := by
  have := uint_answers (env := env) (mn := mn) h2 h35 hrun (k := .unsigned w) ho
  rw [accums_unsigned rs 0 0 (by simp), digitRes_ok hmn] at this
  exact this

/-- C12: a signed destination of 32 bits or more gets the exact value if the magnitude is within
the positive range. -/
theorem C12_signed_exact (env : Env) (B mn mx : Nat) (h2 : 2 ≤ B) (h35 : B ≤ 35) (sg : List Ch)
    (neg : Bool) (hs : Sign sg neg) (ds rest : List Ch) (rs : List Nat)
    (hn : sg = [] → ∀ c l', ds ++ rest = c :: l' → c ≠ 43 ∧ c ≠ 45)
    (hrun : LongestRun B mx ds rs rest) (hmn : mn ≤ ds.length) (w o : Nat) (hw : 32 ≤ w)
    (hfit : (positional B rs : Int) < 2 ^ (w - 1)) (m : Mem) (ho : o < m.objs.length) :
    Answers env (.int B mn mx) (.at o [] (.num (.signed w))) m (sg ++ (ds ++ rest))
      (.ok (.SUCCESS, ⟨m.objs.set o (.num (withSign neg (positional B rs))), m.log⟩, rest)) := by
  have hp : (0 : Int) < 2 ^ (w - 1) := Int.pow_pos (by decide)
  have hk : NumKind.signed w ≠ .signed 0 := by simp; omega
  refine C11_int_success env B mn mx h2 h35 sg neg hs ds rest rs hn hrun hmn _
    (by intro o p t h; cases h) m _ _
    (.value (fun t h => by cases h) ⟨hk, ?_⟩ (List.getElem?_eq_getElem ho))
    (.value (fun t h => by cases h) ⟨hk, ?_⟩ (List.getElem?_eq_getElem ho))
  · cases neg <;> simp only [withSign, if_true, Bool.false_eq_true, if_false, NumKind.inRange] <;> omega
  · simp only [NumKind.inRange]; omega

/-- C12: otherwise the behaviour is undefined. -/
theorem C12_signed_overflow (env : Env) (B mn mx : Nat) (h2 : 2 ≤ B) (h35 : B ≤ 35) (sg : List Ch)
    (neg : Bool) (hs : Sign sg neg) (ds rest : List Ch) (rs : List Nat)
    (hn : sg = [] → ∀ c l', ds ++ rest = c :: l' → c ≠ 43 ∧ c ≠ 45)
    (hrun : LongestRun B mx ds rs rest) (w o : Nat) (hw : 32 ≤ w)
    (hbig : 2 ^ (w - 1) ≤ (positional B rs : Int)) (m : Mem) (ho : o < m.objs.length) :
    Answers env (.int B mn mx) (.at o [] (.num (.signed w))) m (sg ++ (ds ++ rest))
      (.error .ubOverflow) := by
  have hp : (0 : Int) < 2 ^ (w - 1) := Int.pow_pos (by decide)
  have := int_answers (env := env) (mn := mn) h2 h35 hs hn hrun (k := .signed w) ho
  have hacc := accums_overflow (B := B) hw rs 0 hp (by rw [posFrom_zero]; omega)
  rw [show ((0 : Nat) : Int) = 0 from rfl] at hacc
  simp only [NumKind.signed', hacc] at this
  exact this

/-- C12: in particular for the most negative `int`, which is representable. -/
theorem C12_most_negative : (NumKind.signed 32).inRange (-2147483648) ∧
    Answers noRecur int_ (.at 0 [] .int) ⟨[.num 0], []⟩
      [45, 50, 49, 52, 55, 52, 56, 51, 54, 52, 56] (.error .ubOverflow) := by
  refine ⟨by decide, ?_⟩
  refine C12_signed_overflow noRecur 10 1 0 (by decide) (by decide) [45] true .minus
    [50, 49, 52, 55, 52, 56, 51, 54, 52, 56] [] [2, 1, 4, 7, 4, 8, 3, 6, 4, 8] (by intro h; cases h)
    ⟨?_, fun h => absurd rfl h, .inr fun c t' h => by cases h⟩ 32 0 (by decide) (by decide) _
    (by decide)
  repeat first
    | exact .nil
    | refine .cons (by decide) (.inl ⟨by decide, rfl⟩) ?_

/-- 300 in an 8-bit unsigned destination. -/
example : Answers noRecur uint_ (.at 0 [] (.num (.unsigned 8))) ⟨[.num 7], []⟩ [51, 48, 48]
    (.ok (.SUCCESS, ⟨[.num 44], []⟩, [])) := by
  refine C12_unsigned_modulo noRecur 10 1 0 (by decide) (by decide) [51, 48, 48] [] [3, 0, 0]
    ⟨?_, fun h => absurd rfl h, .inr fun c t' h => by cases h⟩ (by decide) 8 0 _ (by decide)
  repeat first
    | exact .nil
    | refine .cons (by decide) (.inl ⟨by decide, rfl⟩) ?_

/-! ### C13 -/

/-- C13: the pattern can be built from every map (keys are different from each other). -/
theorem C13_symbol_builds (entries : List (List Ch × Val)) (hnd : (entries.map Prod.fst).Nodup) :
    ∃ root, buildTrie entries = some root := by
  obtain ⟨root, h, _⟩ := buildTrie_get entries hnd
  exact ⟨root, h⟩

theorem symbol_run {env : Env} {root : Node} {dst : Ref} {m : Mem} {t : List Ch} :
    ∃ f st' fi, run env f (topParser (.symbol root)) dst dst (.symbol root none)
      (⟨⟨t, 0, [], true⟩, m⟩ : World Cursor Mem) =
      symOut dst st' t [] none 0 0 m (longest root t) fi :=
  run_symbol root dst dst m t 0 root none 0 rfl

/-- C13: `symbol` takes exactly the longest key the text continues with and stores its value. -/
theorem C13_symbol_success (env : Env) (entries : List (List Ch × Val))
    (hnd : (entries.map Prod.fst).Nodup) (hne : ∀ e ∈ entries, e.1 ≠ []) (root : Node)
    (hb : buildTrie entries = some root) (key : List Ch) (v : Val) (hk : (key, v) ∈ entries)
    (rest : List Ch) (hl : ∀ e ∈ entries, e.1 <+: key ++ rest → e.1.length ≤ key.length)
    (dst : Ref) (m m' : Mem) (hm : Stores m dst v m') :
    Answers env (.symbol root) dst m (key ++ rest) (.ok (.SUCCESS, m', rest)) := by
  obtain ⟨root', hb', hg⟩ := buildTrie_get entries hnd
  rw [hb] at hb'
  cases hb'
  obtain ⟨f, st', fi, hf⟩ := symbol_run (env := env) (root := root) (dst := dst) (m := m)
    (t := key ++ rest)
  have hkey : root.get key = some v := by rw [hg, lookup_of_mem hnd hk]
  have hnek : key ≠ [] := hne _ hk
  cases hlo : longest root (key ++ rest) with
  | none => exact absurd (List.prefix_append key rest) (longest_none hlo key hnek (by simp [hkey]))
  | some x =>
    obtain ⟨k, v'⟩ := x
    obtain ⟨⟨h0, h1, h2⟩, h3⟩ := longest_some hlo
    have hge := h3 key hnek (by simp [hkey]) (List.prefix_append _ _)
    have hle : k ≤ key.length := by
      have hin : ((key ++ rest).take k, v') ∈ entries := by
        rw [hg] at h2
        obtain ⟨l1, l2, he, _⟩ := List.lookup_eq_some_iff.1 h2
        rw [he]; simp
      have := hl _ hin (List.take_prefix _ _)
      simp only [List.length_take] at this
      omega
    have hk : k = key.length := by omega
    subst hk
    rw [List.take_left, hkey] at h2
    cases h2
    rw [hlo] at hf
    simp only [symOut, opRun] at hf
    rw [show Store.op (MemOp.assign dst v) m = m.assign dst v from rfl, hm.assign] at hf
    have := Answers.of_parses (Parses.of_run (p := .symbol root) (S1 := []) (m := m) rfl hf)
    rwa [Nat.zero_add, List.drop_left] at this

/-- C13: it fails if the text continues with none of the keys. -/
theorem C13_symbol_failure (env : Env) (entries : List (List Ch × Val))
    (hnd : (entries.map Prod.fst).Nodup) (root : Node)
    (hb : buildTrie entries = some root) (t : List Ch) (hn : ∀ e ∈ entries, ¬ e.1 <+: t)
    (dst : Ref) (m : Mem) :
    ∃ rest, Answers env (.symbol root) dst m t (.ok (.FAILURE, m, rest)) := by
  obtain ⟨root', hb', hg⟩ := buildTrie_get entries hnd
  rw [hb] at hb'
  cases hb'
  obtain ⟨f, st', fi, hf⟩ := symbol_run (env := env) (root := root) (dst := dst) (m := m) (t := t)
  cases hlo : longest root t with
  | some x =>
    obtain ⟨k, v'⟩ := x
    obtain ⟨⟨h0, h1, h2⟩, h3⟩ := longest_some hlo
    rw [hg] at h2
    obtain ⟨l1, l2, he, _⟩ := List.lookup_eq_some_iff.1 h2
    exact absurd (List.take_prefix _ _) (hn (t.take k, v') (by rw [he]; simp))
  | none =>
    rw [hlo] at hf
    exact ⟨_, .of_parses (Parses.of_run (p := .symbol root) (S1 := []) (m := m) rfl hf)⟩

/-- The map `{"a": 1, "abc": 2}` -/
def exEntries : List (List Ch × Val) := [([97], .num 1), ([97, 98, 99], .num 2)]

/-- On "abx" the key is "a". -/
example : ∃ root, buildTrie exEntries = some root ∧
    Answers noRecur (.symbol root) (.at 0 [] .int) ⟨[.num 7], []⟩ ([97] ++ [98, 120])
      (.ok (.SUCCESS, ⟨[.num 1], []⟩, [98, 120])) := by
  obtain ⟨root, hb⟩ := C13_symbol_builds exEntries (by decide)
  refine ⟨root, hb, C13_symbol_success _ exEntries (by decide) (by decide) root hb [97] (.num 1)
    (by simp [exEntries]) [98, 120] ?_ _ _ _
    (.value (m := ⟨[.num 7], []⟩) (o := 0) (v := .num 1) (fun t h => by cases h)
      ⟨by simp, by decide⟩ rfl)⟩
  simp [exEntries]

/-- On "xa" there is none. -/
example : ∀ e ∈ exEntries, ¬ e.1 <+: [120, 97] := by simp [exEntries]

/-! ### C14 -/

theorem find?_of_lookup {tab : List (Ch × Val)} {c v} (h : tab.lookup c = some v) :
    tab.find? (fun e => e.1 == c) = some (c, v) := by
  induction tab with
  | nil => cases h
  | cons e tab ih =>
    obtain ⟨d, u⟩ := e
    rw [List.lookup_cons] at h
    rw [List.find?_cons]
    by_cases hd : c = d
    · subst hd
      simp only [beq_self_eq_true] at h ⊢
      cases h; rfl
    · have h1 : (c == d) = false := by simpa using hd
      have h2 : (d == c) = false := by simpa using fun h : d = c => hd h.symm
      rw [h1] at h
      simp only [h2]
      exact ih h

theorem find?_of_lookup_none {tab : List (Ch × Val)} {c} (h : tab.lookup c = none) :
    tab.find? (fun e => e.1 == c) = none := by
  rw [List.lookup_eq_none_iff] at h
  rw [List.find?_eq_none]
  intro e he
  have := h e he
  simp only [bne_iff_ne, ne_eq, beq_iff_eq] at this ⊢
  exact fun h => this h.symm

/-- C14 (partial: verdict and value; nothing is consumed). -/
theorem C14_char_symbol_success_partial (env : Env) (tab : List (Ch × Val)) (c : Ch) (v : Val)
    (h : tab.lookup c = some v) (rest : List Ch) (dst : Ref) (m m' : Mem) (hm : Stores m dst v m') :
    Answers env (.charSymbol tab) dst m (c :: rest) (.ok (.SUCCESS, m', c :: rest)) :=
  .of_parses (Parses.of_run (i := 0) (S1 := []) rfl
    (run_charSymbol (c := c) rfl (find?_of_lookup h) hm.assign))

/-- C14 (partial: the failure side is as claimed). -/
theorem C14_char_symbol_failure_partial (env : Env) (tab : List (Ch × Val)) (t : List Ch)
    (h : ∀ c rest, t = c :: rest → tab.lookup c = none) (dst : Ref) (m : Mem) :
    Answers env (.charSymbol tab) dst m t (.ok (.FAILURE, m, t)) := by
  refine .of_parses (Parses.of_run (i := 0) (S1 := []) rfl (run_charSymbol_no ?_))
  intro c hc
  cases t with
  | nil => cases hc
  | cons d rest => cases hc; exact find?_of_lookup_none (h _ rest rfl)

/-- C14 is false: no `symbol` over characters ever consumes the character. -/
theorem C14_refuted (env : Env) (tab : List (Ch × Val)) (c : Ch) (v : Val)
    (h : tab.lookup c = some v) (rest : List Ch) (dst : Ref) (m m' : Mem) (hm : Stores m dst v m') :
    ¬ ∃ m'', Answers env (.charSymbol tab) dst m (c :: rest) (.ok (.SUCCESS, m'', rest)) := by
  rintro ⟨m'', h'⟩
  have := (C14_char_symbol_success_partial env tab c v h rest dst m m' hm).unique h'
  cases this

example : Answers noRecur (.charSymbol [(97, .num 5)]) (.at 0 [] .int) ⟨[.num 7], []⟩ [97, 98]
    (.ok (.SUCCESS, ⟨[.num 5], []⟩, [97, 98])) :=
  C14_char_symbol_success_partial _ _ 97 (.num 5) rfl _ _ _ _
    (.value (m := ⟨[.num 7], []⟩) (o := 0) (v := .num 5) (fun t h => by cases h)
      ⟨by simp, by decide⟩ rfl)
example : ([(97, .num 5)] : List (Ch × Val)).lookup 98 = none := rfl

end Abu
