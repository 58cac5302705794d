import Verif.Proofs.TextTypes
import Verif.Props.Leaf
/-
C73: string literals and symbol tables, and texts of another character type.
-/
namespace Abu

theorem symbol_takes_converted (env : Env) (t k : CharTy) (entries : List (List Ch × Val))
    (hnd : (entries.map Prod.fst).Nodup) (hne : ∀ e ∈ entries, e.1 ≠ []) (root : Node)
    (hb : buildTrie entries = some root) (part rest : List Ch)
    (ht : ∀ c ∈ part ++ rest, c ∈ t.values) (v : Val) (hk : (part.map (convert t k), v) ∈ entries)
    (hl : ∀ e ∈ entries, e.1 <+: (part ++ rest).map (convert t k) → e.1.length ≤ part.length)
    (dst : Ref) (m m' : Mem) (hm : Stores m dst v m') :
    Answers env (.symbol (root.on t k)) dst m (part ++ rest) (.ok (.SUCCESS, m', rest)) := by
  obtain ⟨root', hb', hg⟩ := buildTrie_get entries hnd
  rw [hb] at hb'
  cases hb'
  obtain ⟨f, st', fi, hf⟩ := symbol_run (env := env) (root := root.on t k) (dst := dst) (m := m)
    (t := part ++ rest)
  rw [longest_on t k ht] at hf
  generalize htx : (part ++ rest).map (convert t k) = tx at hf hl
  have hkey : root.get (part.map (convert t k)) = some v := by rw [hg, lookup_of_mem hnd hk]
  have hnek : part.map (convert t k) ≠ [] := hne _ hk
  have hpre : part.map (convert t k) <+: tx := by
    rw [← htx, List.map_append]; exact List.prefix_append _ _
  cases hlo : longest root tx with
  | none => exact absurd hpre (longest_none hlo _ hnek (by simp [hkey]))
  | some x =>
    obtain ⟨j, v'⟩ := x
    obtain ⟨⟨h0, h1, h2⟩, h3⟩ := longest_some hlo
    have hge := h3 _ hnek (by simp [hkey]) hpre
    rw [List.length_map] at hge
    have hle : j ≤ part.length := by
      have hin : (tx.take j, v') ∈ entries := by
        rw [hg] at h2
        obtain ⟨l1, l2, he, _⟩ := List.lookup_eq_some_iff.1 h2
        rw [he]; simp
      have := hl _ hin (List.take_prefix _ _)
      simp only [List.length_take] at this
      omega
    have hj : j = part.length := by omega
    subst hj
    have htk : tx.take part.length = part.map (convert t k) := by
      rw [← htx, List.map_append, ← List.length_map (f := convert t k), List.take_left]
    rw [htk, hkey] at h2
    cases h2
    rw [hlo] at hf
    simp only [symOut, opRun] at hf
    rw [show Store.op (MemOp.assign dst v) m = m.assign dst v from rfl, hm.assign] at hf
    have := Answers.of_parses (Parses.of_run (p := .symbol (root.on t k)) (S1 := []) (m := m) rfl hf)
    rwa [Nat.zero_add, List.drop_left] at this

theorem symbol_refuses_converted (env : Env) (t k : CharTy) (entries : List (List Ch × Val))
    (hnd : (entries.map Prod.fst).Nodup) (root : Node) (hb : buildTrie entries = some root)
    (text : List Ch) (ht : ∀ c ∈ text, c ∈ t.values)
    (hn : ∀ e ∈ entries, ¬ e.1 <+: text.map (convert t k)) (dst : Ref) (m : Mem) :
    ∃ rest, Answers env (.symbol (root.on t k)) dst m text (.ok (.FAILURE, m, rest)) := by
  obtain ⟨root', hb', hg⟩ := buildTrie_get entries hnd
  rw [hb] at hb'
  cases hb'
  obtain ⟨f, st', fi, hf⟩ := symbol_run (env := env) (root := root.on t k) (dst := dst) (m := m)
    (t := text)
  rw [longest_on t k ht] at hf
  cases hlo : longest root (text.map (convert t k)) with
  | some x =>
    obtain ⟨j, v'⟩ := x
    obtain ⟨⟨h0, h1, h2⟩, h3⟩ := longest_some hlo
    rw [hg] at h2
    obtain ⟨l1, l2, he, _⟩ := List.lookup_eq_some_iff.1 h2
    exact absurd (List.take_prefix _ _) (hn ((text.map (convert t k)).take j, v') (by rw [he]; simp))
  | none =>
    rw [hlo] at hf
    exact ⟨_, .of_parses (Parses.of_run (p := .symbol (root.on t k)) (S1 := []) (m := m) rfl hf)⟩

theorem map_convert_ascii (t k : CharTy) {text : List Ch} (h : ∀ c ∈ text, 0 ≤ c ∧ c ≤ 127) :
    text.map (convert t k) = text := by
  induction text with
  | nil => rfl
  | cons c l ih =>
    rw [List.map_cons, ih fun c hc => h c (by simp [hc]),
      convert_ascii t k (h c (by simp)).1 (h c (by simp)).2]

/-- C73, for all combinations of types, on ASCII texts: `symbol` takes exactly the longest key. -/
theorem C73_symbol_ascii_success_partial (env : Env) (t k : CharTy)
    (entries : List (List Ch × Val)) (hnd : (entries.map Prod.fst).Nodup)
    (hne : ∀ e ∈ entries, e.1 ≠ []) (root : Node) (hb : buildTrie entries = some root)
    (key rest : List Ch) (ht : ∀ c ∈ key ++ rest, 0 ≤ c ∧ c ≤ 127) (v : Val)
    (hk : (key, v) ∈ entries) (hl : ∀ e ∈ entries, e.1 <+: key ++ rest → e.1.length ≤ key.length)
    (dst : Ref) (m m' : Mem) (hm : Stores m dst v m') :
    Answers env (.symbol (root.on t k)) dst m (key ++ rest) (.ok (.SUCCESS, m', rest)) := by
  refine symbol_takes_converted env t k entries hnd hne root hb key rest
    (fun c hc => ascii_values t (ht c hc).1 (ht c hc).2) v ?_ ?_ dst m m' hm
  · rwa [map_convert_ascii t k fun c hc => ht c (by simp [hc])]
  · rwa [map_convert_ascii t k ht]

/-- C73, on ASCII texts: it fails if the text continues with none of the keys. -/
theorem C73_symbol_ascii_failure_partial (env : Env) (t k : CharTy)
    (entries : List (List Ch × Val)) (hnd : (entries.map Prod.fst).Nodup) (root : Node)
    (hb : buildTrie entries = some root) (text : List Ch) (ht : ∀ c ∈ text, 0 ≤ c ∧ c ≤ 127)
    (hn : ∀ e ∈ entries, ¬ e.1 <+: text) (dst : Ref) (m : Mem) :
    ∃ rest, Answers env (.symbol (root.on t k)) dst m text (.ok (.FAILURE, m, rest)) := by
  refine symbol_refuses_converted env t k entries hnd root hb text
    (fun c hc => ascii_values t (ht c hc).1 (ht c hc).2) ?_ dst m
  rwa [map_convert_ascii t k ht]

/-- C73, what a symbol table with keys of type `k` takes from a text of type `t`: the longest part
that is a key once its characters have been converted to the type of the keys. -/
theorem C73_symbol_takes_converted (env : Env) (t k : CharTy) (entries : List (List Ch × Val))
    (hnd : (entries.map Prod.fst).Nodup) (hne : ∀ e ∈ entries, e.1 ≠ []) (root : Node)
    (hb : buildTrie entries = some root) (part rest key more : List Ch)
    (ht : ∀ c ∈ part ++ rest, t.Holds c) (hp : ConvertedText k part key)
    (hr : ConvertedText k rest more) (v : Val) (hk : (key, v) ∈ entries)
    (hl : ∀ e ∈ entries, e.1 <+: key ++ more → e.1.length ≤ key.length)
    (dst : Ref) (m m' : Mem) (hm : Stores m dst v m') :
    Answers env (.symbol (root.on t k)) dst m (part ++ rest) (.ok (.SUCCESS, m', rest)) := by
  rw [convertedText_iff (t := t) fun c h => ht c (by simp [h])] at hp hr
  subst hp hr
  refine symbol_takes_converted env t k entries hnd hne root hb part rest
    (fun c h => (t.holds_iff c).1 (ht c h)) v hk (fun e he h => ?_) dst m m' hm
  rw [List.map_append] at h
  simpa using hl e he h

/-- C73: and it fails if there is no such part. -/
theorem C73_symbol_refuses_converted (env : Env) (t k : CharTy) (entries : List (List Ch × Val))
    (hnd : (entries.map Prod.fst).Nodup) (root : Node) (hb : buildTrie entries = some root)
    (text conv : List Ch) (ht : ∀ c ∈ text, t.Holds c) (hv : ConvertedText k text conv)
    (hn : ∀ e ∈ entries, ¬ e.1 <+: conv) (dst : Ref) (m : Mem) :
    ∃ rest, Answers env (.symbol (root.on t k)) dst m text (.ok (.FAILURE, m, rest)) := by
  rw [convertedText_iff ht] at hv
  subst hv
  exact symbol_refuses_converted env t k entries hnd root hb text
    (fun c h => (t.holds_iff c).1 (ht c h)) hn dst m

/-- C73: a table of characters looks up the converted character. -/
theorem C73_char_symbol_takes_converted (env : Env) (t k : CharTy) (tab : List (Ch × Val)) (c e : Ch)
    (hc : t.Holds c) (he : Converted k c e) (v : Val) (h : tab.lookup e = some v) (rest : List Ch)
    (dst : Ref) (m m' : Mem) (hm : Stores m dst v m') :
    Answers env (.charSymbol (tableOn t k tab)) dst m (c :: rest) (.ok (.SUCCESS, m', c :: rest)) := by
  rw [converted_iff hc] at he
  exact C14_char_symbol_success_partial env _ c v
    (by rw [lookup_on t k ((t.holds_iff c).1 hc), he, h]) rest dst m m' hm

/-- C73: and fails if it is not there. -/
theorem C73_char_symbol_refuses_converted (env : Env) (t k : CharTy) (tab : List (Ch × Val))
    (text : List Ch) (ht : ∀ c ∈ text, t.Holds c)
    (h : ∀ c rest e, text = c :: rest → Converted k c e → tab.lookup e = none) (dst : Ref)
    (m : Mem) :
    Answers env (.charSymbol (tableOn t k tab)) dst m text (.ok (.FAILURE, m, text)) := by
  refine C14_char_symbol_failure_partial env _ text (fun c rest he => ?_) dst m
  have hc := ht c (by simp [he])
  rw [lookup_on t k ((t.holds_iff c).1 hc)]
  exact h c rest _ he ((converted_iff hc).2 rfl)

/-- The same character, for C++: values of different types are compared as `char32_t`. -/
def SameChar (t k : CharTy) (c e : Ch) : Prop :=
  if t = k then c = e else ∃ u, Converted .wide c u ∧ Converted .wide e u

theorem sameChar_iff {t k : CharTy} {c e : Ch} (hc : t.Holds c) (he : k.Holds e) :
    SameChar t k c e ↔ if t = k then c = e else widen c = widen e := by
  have key : ∀ {t : CharTy} {c : Ch}, t.Holds c → ∀ u, Converted .wide c u ↔ widen c = u := by
    intro t c h u
    rw [converted_iff h]
    cases t with
    | char => rfl
    | wide =>
      unfold CharTy.Holds at h
      unfold convert widen
      simp only
      rw [show c % 2 ^ 32 = c by omega]
  unfold SameChar
  split
  · rfl
  · constructor
    · rintro ⟨u, h1, h2⟩
      rw [(key hc u).1 h1, (key he u).1 h2]
    · intro h
      exact ⟨widen c, (key hc _).2 rfl, (key he _).2 h.symm⟩

/-- The same text. -/
inductive SameText (t k : CharTy) : List Ch → List Ch → Prop
  | nil : SameText t k [] []
  | cons {c e cs es} : SameChar t k c e → SameText t k cs es → SameText t k (c :: cs) (e :: es)

theorem literalOn_map (t k : CharTy) (s : List Ch) : ∃ f : Ch → Ch, literalOn t k s = s.map f ∧
    ∀ c e, c ∈ t.values → e ∈ k.values → (c = f e ↔ SameChar t k c e) := by
  suffices h : ∃ f : Ch → Ch, literalOn t k s = s.map f ∧
      ∀ c e, c ∈ t.values → e ∈ k.values →
        (c = f e ↔ if t = k then c = e else widen c = widen e) by
    obtain ⟨f, h1, h2⟩ := h
    refine ⟨f, h1, fun c e hc he => ?_⟩
    rw [h2 c e hc he, sameChar_iff ((t.holds_iff c).2 hc) ((k.holds_iff e).2 he)]
  cases t <;> cases k
  · exact ⟨id, by simp [literalOn], fun c e _ _ => by simp⟩
  · refine ⟨fun e => if 2 ^ 32 - 128 ≤ e then e - 2 ^ 32 else if e < 128 then e else noChar, rfl,
      fun c e hc he => ?_⟩
    rw [values_char] at hc
    rw [values_wide] at he
    unfold IsChar at hc
    simp only [widen, noChar, reduceCtorEq, if_false]
    split
    · omega
    · split <;> omega
  · refine ⟨widen, rfl, fun c e hc he => ?_⟩
    rw [values_char] at he
    rw [values_wide] at hc
    simp only [widen, reduceCtorEq, if_false]
    omega
  · exact ⟨id, by simp [literalOn], fun c e _ _ => by simp⟩

/-- C73: a literal of either type takes, from a text of either type, the same characters. -/
theorem C73_literal_success (env : Env) (t k : CharTy) (s part rest : List Ch)
    (hs : ∀ e ∈ s, k.Holds e) (ht : ∀ c ∈ part, t.Holds c)
    (h : SameText t k part s) (dst : Ref) (m : Mem) :
    Answers env (.strLit (literalOn t k s)) dst m (part ++ rest) (.ok (.SUCCESS, m, rest)) := by
  simp only [CharTy.holds_iff] at hs ht
  obtain ⟨f, hf, hc⟩ := literalOn_map t k s
  have : part = s.map f := by
    clear hf
    induction h with
    | nil => rfl
    | @cons c e cs es hce _ ih =>
      rw [List.map_cons, ih (fun e he => hs e (by simp [he])) (fun c h => ht c (by simp [h])),
        (hc c e (ht c (by simp)) (hs e (by simp))).2 hce]
  rw [hf, this]
  exact C09_literal_success env _ rest dst m

/-- C73: and fails if the text begins otherwise. -/
theorem C73_literal_failure (env : Env) (t k : CharTy) (s text : List Ch)
    (hs : ∀ e ∈ s, k.Holds e) (ht : ∀ c ∈ text, t.Holds c)
    (h : ∀ part, part <+: text → ¬ SameText t k part s) (dst : Ref) (m : Mem) :
    ∃ rest, Answers env (.strLit (literalOn t k s)) dst m text (.ok (.FAILURE, m, rest)) := by
  simp only [CharTy.holds_iff] at hs ht
  obtain ⟨f, hf, hc⟩ := literalOn_map t k s
  rw [hf]
  refine C09_literal_failure env _ text (fun hp => h _ hp ?_) dst m
  have hin : ∀ c ∈ s.map f, c ∈ t.values := fun c h => ht c (hp.subset h)
  clear h hf hp
  induction s with
  | nil => exact .nil
  | cons e s ih =>
    exact .cons ((hc _ e (hin _ (by simp)) (hs e (by simp))).1 rfl)
      (ih (fun e h => hs e (by simp [h])) fun c h => hin c (by simp at h ⊢; exact .inr h))

/-- C73 is false of symbol tables: the table `{"a": 1}` of `char` takes LATIN SMALL LETTER S WITH
CARON (U+0161) for an `a`. -/
theorem C73_refuted : ∃ entries root, buildTrie entries = some root ∧
    (∀ e ∈ entries, ∀ c ∈ e.1, CharTy.char.Holds c) ∧ CharTy.wide.Holds 0x161 ∧
    (∀ e ∈ entries, ¬ e.1 <+: [0x161]) ∧
    ∀ env, Answers env (.symbol (root.on .wide .char)) (.at 0 [] .int) ⟨[.num 7], []⟩ [0x161]
      (.ok (.SUCCESS, ⟨[.num 1], []⟩, [])) := by
  obtain ⟨root, hb⟩ := C13_symbol_builds [([97], .num 1)] (by simp)
  refine ⟨[([97], .num 1)], root, hb, ?_, ?_, by simp, fun env => ?_⟩
  · simp only [List.mem_singleton]
    rintro e rfl c hc
    simp only [List.mem_singleton] at hc
    subst hc
    exact ⟨by decide, by decide⟩
  · exact ⟨by decide, by decide⟩
  · refine C73_symbol_takes_converted env .wide .char [([97], .num 1)] (by simp) (by simp) root hb
      [0x161] [] [97] [] ?_ (.cons ⟨⟨by decide, by decide⟩, 1, rfl⟩ .nil) .nil (.num 1) (by simp) ?_
      _ _ _
      (.value (m := ⟨[.num 7], []⟩) (o := 0) (v := .num 1) (fun t h => by cases h)
        ⟨by simp, by decide⟩ rfl)
    · simp only [List.append_nil, List.mem_singleton]
      rintro c rfl
      exact ⟨by decide, by decide⟩
    · simp

/-- C73 is false of tables of characters too. -/
theorem C73_refuted_char_symbol : ∃ tab : List (Ch × Val), (∀ e ∈ tab, CharTy.char.Holds e.1) ∧
    tab.lookup 0x161 = none ∧
    ∀ env, Answers env (.charSymbol (tableOn .wide .char tab)) (.at 0 [] .int) ⟨[.num 7], []⟩ [0x161]
      (.ok (.SUCCESS, ⟨[.num 1], []⟩, [0x161])) := by
  refine ⟨[(97, .num 1)], ?_, rfl, fun env => ?_⟩
  · simp only [List.mem_singleton]
    rintro e rfl
    exact ⟨by decide, by decide⟩
  · exact C73_char_symbol_takes_converted env .wide .char _ 0x161 97 ⟨by decide, by decide⟩
      ⟨⟨by decide, by decide⟩, 1, rfl⟩ (.num 1) rfl [] _ _ _
      (.value (m := ⟨[.num 7], []⟩) (o := 0) (v := .num 1) (fun t h => by cases h)
        ⟨by simp, by decide⟩ rfl)

/-- `lit("ab")` on a text of `char32_t`. -/
example : Answers noRecur (.strLit (literalOn .wide .char [97, 98])) .nil ⟨[], []⟩ ([97, 98] ++ [99])
    (.ok (.SUCCESS, ⟨[], []⟩, [99])) := by
  refine C73_literal_success _ .wide .char [97, 98] [97, 98] [99] ?_ ?_ ?_ _ _
  · intro e he
    simp only [List.mem_cons, List.not_mem_nil, or_false] at he
    rcases he with rfl | rfl <;> exact ⟨by decide, by decide⟩
  · intro e he
    simp only [List.mem_cons, List.not_mem_nil, or_false] at he
    rcases he with rfl | rfl <;> exact ⟨by decide, by decide⟩
  · have h : ∀ x : Ch, 0 ≤ x → x ≤ 127 → Converted .wide x x :=
      fun x h0 h1 => ⟨⟨h0, by omega⟩, 0, by omega⟩
    exact .cons ⟨97, h _ (by decide) (by decide), h _ (by decide) (by decide)⟩
      (.cons ⟨98, h _ (by decide) (by decide), h _ (by decide) (by decide)⟩ .nil)

/-- `0xE9` is the same character as U+FFFFFFE9, and not as U+00E9. -/
example : SameChar .char .wide (-23) 0xFFFFFFE9 ∧ ¬ SameChar .char .wide (-23) 0xE9 := by
  constructor
  · exact ⟨0xFFFFFFE9, ⟨⟨by decide, by decide⟩, -1, rfl⟩, ⟨by decide, by decide⟩, 0, rfl⟩
  · rintro ⟨u, ⟨h1, n, h2⟩, h3, k, h4⟩
    simp only [CharTy.Holds, CharTy.count] at h1 h2 h3 h4
    omega

/-- A table of `char32_t`, `{U"a": 1, U"abc": 2}`, on the `char` text `abx`. -/
example : ∃ root, buildTrie exEntries = some root ∧
    Answers noRecur (.symbol (root.on .char .wide)) (.at 0 [] .int) ⟨[.num 7], []⟩ ([97] ++ [98, 120])
      (.ok (.SUCCESS, ⟨[.num 1], []⟩, [98, 120])) := by
  obtain ⟨root, hb⟩ := C13_symbol_builds exEntries (by decide)
  refine ⟨root, hb, C73_symbol_ascii_success_partial _ .char .wide exEntries (by decide) (by decide)
    root hb [97] [98, 120] (by decide) (.num 1) (by simp [exEntries]) ?_ _ _ _
    (.value (m := ⟨[.num 7], []⟩) (o := 0) (v := .num 1) (fun t h => by cases h)
      ⟨by simp, by decide⟩ rfl)⟩
  simp [exEntries]

end Abu
