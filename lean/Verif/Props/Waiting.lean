import Verif.Proofs.Waiting
import Verif.Proofs.Scan
import Verif.Proofs.OneChar
import Verif.Proofs.PegEval
import Verif.Proofs.Undecided
import Verif.Props.Chunks
/-
C80: when a parser object asks for more text.
-/
namespace Abu

/-! ### Leaf patterns -/

/-- C80 (partial: single characters): a parser object for a character set that has got the text `opsText
ops`, cut into buffers in any way, asks for more exactly if it has got nothing. -/
theorem C80_char_partial (env : Env) (s : CharSet) (dst : Ref) (m : Mem) (ops : List SOp) (hu : Unfinished ops)
    (r : Res) (m' : Mem) (rest : List Ch)
    (h : MakeParserRun env (.char s) dst m (ops ++ [.consume]) (.ok (r, m', rest))) :
    r = .PARTIAL ↔ opsText ops = [] :=
  (leafStep_char s).waiter.object (p := .char s) (fun _ _ h => (List.append_eq_nil_iff.1 h).1)
    (fun _ _ h => by cases h; exact ⟨rfl, rfl, rfl⟩) hu h

/-- C80 (partial: `lit(c)`): the same, when the value is discarded. -/
theorem C80_lit_char_partial (env : Env) (s : CharSet) (dst : Ref) (m : Mem) (ops : List SOp)
    (hu : Unfinished ops) (r : Res) (m' : Mem) (rest : List Ch)
    (h : MakeParserRun env (.discard (.char s)) dst m (ops ++ [.consume]) (.ok (r, m', rest))) :
    r = .PARTIAL ↔ opsText ops = [] :=
  (leafStep_char s).waiter.discard.object (p := .discard (.char s))
    (fun _ _ h => (List.append_eq_nil_iff.1 h).1)
    (fun _ _ h => by cases h; exact ⟨rfl, _, rfl, rfl, rfl⟩) hu h

/-- C80 (partial: symbols of one character): the same. -/
theorem C80_char_symbol_partial (env : Env) (tab : List (Ch × Val)) (dst : Ref) (m : Mem) (ops : List SOp)
    (hu : Unfinished ops) (r : Res) (m' : Mem) (rest : List Ch)
    (h : MakeParserRun env (.charSymbol tab) dst m (ops ++ [.consume]) (.ok (r, m', rest))) :
    r = .PARTIAL ↔ opsText ops = [] :=
  (leafStep_charSymbol tab).waiter.object (p := .charSymbol tab) (fun _ _ h => (List.append_eq_nil_iff.1 h).1)
    (fun _ _ h => by cases h; exact ⟨rfl, rfl, rfl⟩) hu h

/-- C80 (partial: end of the input): the same. -/
theorem C80_eoi_partial (env : Env) (dst : Ref) (m : Mem) (ops : List SOp)
    (hu : Unfinished ops) (r : Res) (m' : Mem) (rest : List Ch)
    (h : MakeParserRun env .eoi dst m (ops ++ [.consume]) (.ok (r, m', rest))) :
    r = .PARTIAL ↔ opsText ops = [] :=
  leafStep_eoi.waiter.object (p := .eoi) (fun _ _ h => (List.append_eq_nil_iff.1 h).1)
    (fun _ _ h => by cases h; exact ⟨rfl, rfl, rfl⟩) hu h

/-- C80 (partial: literals): a literal asks for more exactly if it has got a part of it that is not all
of it. -/
theorem C80_literal_partial (env : Env) (s : List Ch) (dst : Ref) (m : Mem) (ops : List SOp)
    (hu : Unfinished ops) (r : Res) (m' : Mem) (rest : List Ch)
    (h : MakeParserRun env (.strLit s) dst m (ops ++ [.consume]) (.ok (r, m', rest))) :
    r = .PARTIAL ↔ opsText ops <+: s ∧ opsText ops ≠ s := by
  refine (leafStep_strLit s).waiter.object (p := .strLit s) (fun u l h => ⟨?_, ?_⟩)
    (fun _ _ h => by cases h; exact ⟨rfl, rfl, List.nil_prefix⟩) hu h
  · exact (List.prefix_append u l).trans h.1
  · rintro rfl
    have hl := h.1.length_le
    simp only [List.length_append] at hl
    have : l = [] := List.length_eq_zero_iff.1 (by omega)
    exact h.2 (by rw [this, List.append_nil])

/-- C80 (partial: symbols): a symbol asks for more exactly if it has got nothing or there is a key that
goes on after what it has got. In particular it answers as soon as it has got a key that no other
key continues. -/
theorem C80_symbol_partial (env : Env) (entries : List (List Ch × Val))
    (hnd : (entries.map Prod.fst).Nodup) (root : Node) (hb : buildTrie entries = some root) (dst : Ref)
    (m : Mem) (ops : List SOp) (hu : Unfinished ops) (r : Res) (m' : Mem) (rest : List Ch)
    (h : MakeParserRun env (.symbol root) dst m (ops ++ [.consume]) (.ok (r, m', rest))) :
    r = .PARTIAL ↔ opsText ops = [] ∨ ∃ e ∈ entries, opsText ops <+: e.1 ∧ opsText ops ≠ e.1 := by
  obtain ⟨root', hb', hg⟩ := buildTrie_get entries hnd
  rw [hb] at hb'
  cases hb'
  rw [(leafStep_symbol root).waiter.object (p := .symbol root) (fun _ _ h => h.left)
    (fun _ _ h => by cases h; exact ⟨rfl, root, none, rfl, rfl, .inl rfl⟩) hu h,
    nodeOpen_iff (buildTrie_fruitful hnd hb)]
  refine or_congr_right ⟨?_, ?_⟩
  · rintro ⟨x, hx, hk⟩
    rw [hg] at hk
    obtain ⟨v, hv⟩ := Option.isSome_iff_exists.1 hk
    obtain ⟨l1, l2, he, _⟩ := List.lookup_eq_some_iff.1 hv
    exact ⟨(opsText ops ++ x, v), by rw [he]; simp, List.prefix_append _ _, by simpa using Ne.symm hx⟩
  · rintro ⟨⟨k, v⟩, he, ⟨x, hx⟩, hne⟩
    simp only at hx hne
    subst hx
    refine ⟨x, by simpa using Ne.symm hne, ?_⟩
    rw [hg, lookup_of_mem hnd he]
    rfl

theorem digitString_of_valid {B : Nat} (h2 : 2 ≤ B) (h35 : B ≤ 35) {t : List Ch} (ht : ∀ c ∈ t, IsChar c)
    (h : ∀ c ∈ t, digitValid B c = true) : ∃ rs, DigitString B t rs := by
  induction t with
  | nil => exact ⟨[], .nil⟩
  | cons c t ih =>
    obtain ⟨rs, hrs⟩ := ih (fun c hc => ht c (by simp [hc])) fun c hc => h c (by simp [hc])
    obtain ⟨r, hr, hs⟩ := (C07_digits_recognised_partial B h2 h35 c (ht c (by simp))).1 (h c (by simp))
    exact ⟨r :: rs, .cons hr hs hrs⟩

theorem digitsOpen_iff {B mx : Nat} (h2 : 2 ≤ B) (h35 : B ≤ 35) {t : List Ch} (ht : ∀ c ∈ t, IsChar c) :
    DigitsOpen B mx t ↔ (∃ rs, DigitString B t rs) ∧ (mx = 0 ∨ t.length < mx) :=
  and_congr_left fun _ => ⟨digitString_of_valid h2 h35 ht, fun ⟨_, h⟩ => h.valid h2 h35⟩

/-- C80 (partial: numbers without sign): a number asks for more exactly if it has got digits only, and
fewer than the largest number of digits allowed (`mx`, `0`: any number). -/
theorem C80_uint_partial (env : Env) (B mn mx : Nat) (h2 : 2 ≤ B) (h35 : B ≤ 35) (dst : Ref) (m : Mem)
    (ops : List SOp) (hu : Unfinished ops) (ht : ∀ c ∈ opsText ops, IsChar c) (r : Res) (m' : Mem)
    (rest : List Ch) (h : MakeParserRun env (.uint B mn mx) dst m (ops ++ [.consume]) (.ok (r, m', rest))) :
    r = .PARTIAL ↔ (∃ rs, DigitString B (opsText ops) rs) ∧ (mx = 0 ∨ (opsText ops).length < mx) := by
  rw [← digitsOpen_iff h2 h35 ht]
  refine (leafStep_uint B mn mx).waiter.object (p := .uint B mn mx) (fun _ _ h => h.left) (fun st w hc => ?_) hu h
  simp only [show topParser (.uint B mn mx) = .uint B mn mx from rfl, construct, mk, exec] at hc
  split at hc
  · cases hc
  · cases hc
    exact ⟨rfl, rfl, by simp, by simp only [List.length_nil]; omega⟩

/-- C80 (partial: numbers with a sign): the same after an optional sign. -/
theorem C80_int_partial (env : Env) (B mn mx : Nat) (h2 : 2 ≤ B) (h35 : B ≤ 35) (dst : Ref) (m : Mem)
    (ops : List SOp) (hu : Unfinished ops) (ht : ∀ c ∈ opsText ops, IsChar c) (r : Res) (m' : Mem)
    (rest : List Ch) (h : MakeParserRun env (.int B mn mx) dst m (ops ++ [.consume]) (.ok (r, m', rest))) :
    r = .PARTIAL ↔ ∃ sg neg ds rs, Sign sg neg ∧ opsText ops = sg ++ ds ∧ DigitString B ds rs ∧
      (mx = 0 ∨ ds.length < mx) := by
  rw [(leafStep_int B mn mx).waiter.object (p := .int B mn mx) (fun _ _ h => h.left) (fun st w hc => ?_) hu h]
  · constructor
    · rintro ⟨sg, ds, he, hs, hd⟩
      obtain ⟨⟨rs, h1⟩, h3⟩ := (digitsOpen_iff h2 h35 fun c hc => ht c (by rw [he]; simp [hc])).1 hd
      rcases hs with rfl | rfl | rfl
      · exact ⟨_, _, ds, rs, .none, he, h1, h3⟩
      · exact ⟨_, _, ds, rs, .plus, he, h1, h3⟩
      · exact ⟨_, _, ds, rs, .minus, he, h1, h3⟩
    · rintro ⟨sg, neg, ds, rs, hs, he, h1, h3⟩
      refine ⟨sg, ds, he, ?_, (digitsOpen_iff h2 h35 fun c hc => ht c (by rw [he]; simp [hc])).2 ⟨⟨rs, h1⟩, h3⟩⟩
      cases hs <;> simp
  · simp only [show topParser (.int B mn mx) = .int B mn mx from rfl, construct, mk, exec] at hc
    split at hc
    · cases hc
    · cases hc
      exact ⟨rfl, .inl ⟨rfl, rfl⟩⟩

/-- The symbols "ab" and "abc", which differ in the last character: after "ab" there is more to come,
after "abc" there is an answer. -/
example : ∃ root, buildTrie [([97, 98], .num 1), ([97, 98, 99], .num 2)] = some root ∧
    MakeParserRun (fun _ => none) (.symbol root) .nil ⟨[], []⟩ ([.add [97, 98] false] ++ [.consume])
      (.ok (.PARTIAL, ⟨[], []⟩, [])) ∧
    MakeParserRun (fun _ => none) (.symbol root) .nil ⟨[], []⟩
      ([.add [97, 98] false, .consume, .add [99] false] ++ [.consume]) (.ok (.SUCCESS, ⟨[], []⟩, [])) :=
  ⟨_, rfl, makeParser_of_sessionN (n := 9) rfl rfl, makeParser_of_sessionN (n := 9) rfl rfl⟩

/-- A number of at most two digits answers with the second one; without a limit it goes on. -/
example : MakeParserRun (fun _ => none) (.uint 10 1 2) .nil ⟨[], []⟩
      ([.add [49] false, .consume, .add [50] false] ++ [.consume]) (.ok (.SUCCESS, ⟨[], []⟩, [])) ∧
    MakeParserRun (fun _ => none) (.int 10 1 0) .nil ⟨[], []⟩
      ([.add [45] false, .consume, .add [50] false] ++ [.consume]) (.ok (.PARTIAL, ⟨[], []⟩, [])) :=
  ⟨makeParser_of_sessionN (n := 9) rfl rfl, makeParser_of_sessionN (n := 9) rfl rfl⟩

/-! ### Patterns built from them -/

/-- C80 (partial: tidy patterns without skipper, symbols of one character left out): what a parser
object answers follows from what can be said of the text so far (`Scan`), whatever the buffers and
the calls of `consume` before: it asks for more if nothing can be said, fails if the pattern does not
match, and else succeeds and leaves what follows the match. -/
theorem C80_tidy_partial (env : Env) (els elf : Stale) (henv : env.tidy false els elf) (p : Pat)
    (ls lf : Stale) (hp : p.tidy false els elf false ls lf = true) (dst : Ref) (m : Mem) (ops : List SOp)
    (hu : Unfinished ops) (a : Ans) (ha : Scan env (opsText ops) p 0 a) (r : Res) (m' : Mem) (rest : List Ch)
    (h : MakeParserRun env p dst m (ops ++ [.consume]) (.ok (r, m', rest))) :
    r = a.res ∧ ∀ j, a = .yes j → rest = (opsText ops).drop j := by
  have hm := ha.object henv hp hu h
  by_cases hr : r = .PARTIAL
  · subst hr
    have := Ans.eq_more (hm.1 rfl)
    subst this
    exact ⟨rfl, nofun⟩
  · have hu' : Unfinished (ops ++ [.consume]) := by
      intro b f hb
      exact hu b f (by simpa using hb)
    have hP := C28_early_verdict_is_definitive env p dst m _ hu' r hr m' rest h []
    rw [opsText_append] at hP
    simp only [opsText, List.append_nil] at hP
    obtain ⟨o, h1, h2⟩ := ghost_peg henv hp hP.ghost_id
    have hpeg := ha.peg
    cases a with
    | more => exact absurd (hm.2 rfl) hr
    | no =>
      cases hpeg.unique h1
      cases h2
      exact ⟨rfl, nofun⟩
    | yes j =>
      cases hpeg.unique h1
      cases h2
      exact ⟨rfl, fun _ e => by cases e; rfl⟩

/-- C80 (partial: as before): if the pattern has an outcome on the text so far, the object asks for
more exactly if the outcome cannot be told yet. -/
theorem C80_asks_for_more_partial (env : Env) (els elf : Stale) (henv : env.tidy false els elf) (p : Pat)
    (ls lf : Stale) (hp : p.tidy false els elf false ls lf = true) (dst : Ref) (m : Mem) (ops : List SOp)
    (hu : Unfinished ops) (o : Option Nat) (ho : Peg env (opsText ops) p 0 o) (r : Res) (m' : Mem)
    (rest : List Ch) (h : MakeParserRun env p dst m (ops ++ [.consume]) (.ok (r, m', rest))) :
    r = .PARTIAL ↔ Scan env (opsText ops) p 0 .more := by
  constructor
  · rintro rfl
    rcases ho.scan with h1 | h1
    · exact h1
    · have := (C80_tidy_partial env els elf henv p ls lf hp dst m ops hu _ h1 _ _ _ h).1
      cases o <;> cases this
  · intro h1
    exact (C80_tidy_partial env els elf henv p ls lf hp dst m ops hu _ h1 _ _ _ h).1

theorem scan_rep_char {env : Env} {s : CharSet} {t : List Ch} : ∀ {l : List Ch} {i mn mx},
    t.drop i = l → (mx = 0 ∨ l.length < mx) → (∀ c ∈ l, s.isValid c = true) →
    Scan env t (.rep mn mx (.char s)) i .more := by
  intro l
  induction l with
  | nil => intro i mn mx h _ _; exact .repWait (.leafMore h)
  | cons c l ih =>
    intro i mn mx h hm hl
    have hi : t[i]? = some c := by
      have := congrArg (·[0]?) h
      simpa using this
    refine .repMore ?_ (.leaf rfl ?_ (.char hi (hl c (by simp)))) (ih ?_ ?_ fun c hc => hl c (by simp [hc]))
    · rintro rfl
      simp at hm
    · intro h'
      rw [show t.drop i = [] from h'] at h
      cases h
    · rw [← List.drop_drop, h]; rfl
    · simp only [List.length_cons] at hm
      omega

theorem scan_rep_char_done {env : Env} {s : CharSet} {t : List Ch} : ∀ {l : List Ch} {i mn mx},
    t.drop i = l → ¬ ((mx = 0 ∨ l.length < mx) ∧ ∀ c ∈ l, s.isValid c = true) →
    ∃ a, a ≠ .more ∧ Scan env t (.rep mn mx (.char s)) i a := by
  intro l
  induction l with
  | nil =>
    intro i mn mx h hn
    simp only [List.length_nil, List.not_mem_nil, false_implies, implies_true, and_true] at hn
    omega
  | cons c l ih =>
    intro i mn mx h hn
    have hi : t[i]? = some c := by
      have := congrArg (·[0]?) h
      simpa using this
    have ho : ¬ (Pat.char s).Open (t.drop i) := by
      intro h'
      rw [show t.drop i = [] from h'] at h
      cases h
    by_cases hc : s.isValid c = true
    · have h1 : Scan env t (.char s) i (.yes (i + 1)) := .leaf rfl ho (.char hi hc)
      by_cases hm : mx = 1
      · subst hm
        exact ⟨.yes (i + 1), nofun, .repLast h1⟩
      · have h2 : t.drop (i + 1) = l := by rw [← List.drop_drop, h]; rfl
        have hn' : ¬ ((mx - 1 = 0 ∨ l.length < mx - 1) ∧ ∀ c ∈ l, s.isValid c = true) := by
          rintro ⟨h3, h4⟩
          refine hn ⟨?_, ?_⟩
          · simp only [List.length_cons]; omega
          · intro x hx
            rcases List.mem_cons.1 hx with rfl | hx
            · exact hc
            · exact h4 x hx
        obtain ⟨a, h3, h4⟩ := ih (mn := mn - 1) (mx := mx - 1) h2 hn'
        exact ⟨a, h3, .repMore hm h1 h4⟩
    · have h1 : Scan env t (.char s) i .no :=
        .leafNo rfl ho (.charNo fun c' h' => by rw [hi] at h'; cases h'; simpa using hc)
      cases mn with
      | zero => exact ⟨.yes i, nofun, .repStop h1⟩
      | succ mn => exact ⟨.no, nofun, .repFew (Nat.succ_pos _) h1⟩

/-- C80 (partial: repeated characters): a repetition of a character asks for more exactly if it has got
characters of the set only, and fewer than the largest number allowed (`mx`, `0`: any number). -/
theorem C80_repeated_char_partial (env : Env) (els elf : Stale) (henv : env.tidy false els elf) (s : CharSet)
    (mn mx : Nat) (dst : Ref) (m : Mem) (ops : List SOp) (hu : Unfinished ops) (r : Res) (m' : Mem)
    (rest : List Ch)
    (h : MakeParserRun env (.rep mn mx (.char s)) dst m (ops ++ [.consume]) (.ok (r, m', rest))) :
    r = .PARTIAL ↔ (mx = 0 ∨ (opsText ops).length < mx) ∧ ∀ c ∈ opsText ops, s.isValid c = true := by
  have key := fun a ha => (C80_tidy_partial env els elf henv (.rep mn mx (.char s)) .any .any rfl dst m ops hu a
    ha r m' rest h).1
  constructor
  · intro hr
    by_cases hn : (mx = 0 ∨ (opsText ops).length < mx) ∧ ∀ c ∈ opsText ops, s.isValid c = true
    · exact hn
    · obtain ⟨a, h1, h2⟩ := scan_rep_char_done (env := env) (mn := mn) (i := 0) rfl hn
      have := key a h2
      subst hr
      cases a <;> first | exact absurd rfl h1 | cases this
  · intro hn
    exact key .more (scan_rep_char (i := 0) rfl hn.1 hn.2)

/-- `char_('a', 'z')` two or three times answers with the third letter. -/
example : MakeParserRun (fun _ => none) (.rep 2 3 (.char (.range 97 122))) .nil ⟨[], []⟩
      ([.add [97, 98] false] ++ [.consume]) (.ok (.PARTIAL, ⟨[], []⟩, [])) ∧
    MakeParserRun (fun _ => none) (.rep 2 3 (.char (.range 97 122))) .nil ⟨[], []⟩
      ([.add [97, 98] false, .consume, .add [99, 100] false] ++ [.consume])
      (.ok (.SUCCESS, ⟨[], []⟩, [100])) :=
  ⟨makeParser_of_sessionN (n := 9) rfl rfl, makeParser_of_sessionN (n := 9) rfl rfl⟩

/-- A list of the letter `a` separated by commas, in brackets: after `[a,` nothing can be said, and the
object asks for more; after `[a]` it is known to match, and the object answers. -/
example : let p : Pat := .seq [.char (.single 91), .list (.char (.single 97)) (.char (.single 44)),
      .char (.single 93)]
    (∃ els elf ls lf, Env.tidy (fun _ => none) false els elf ∧ p.tidy false els elf false ls lf = true) ∧
    Scan (fun _ => none) [91, 97, 44] p 0 .more ∧
    MakeParserRun (fun _ => none) p .nil ⟨[], []⟩ ([.add [91, 97] false, .consume, .add [44] false] ++ [.consume])
      (.ok (.PARTIAL, ⟨[], []⟩, [])) ∧
    Scan (fun _ => none) [91, 97, 93] p 0 (.yes 3) ∧
    MakeParserRun (fun _ => none) p .nil ⟨[], []⟩ ([.add [91, 97] false, .consume, .add [93] false] ++ [.consume])
      (.ok (.SUCCESS, ⟨[], []⟩, [])) := by
  have yes : ∀ {t : List Ch} {i : Nat} {c : Ch}, t[i]? = some c → Scan (fun _ => none) t (.char (.single c)) i
      (.yes (i + 1)) := by
    intro t i c h
    refine .leaf rfl (fun h' => ?_) (.char h (by simp [CharSet.isValid]))
    have h' : t.drop i = [] := h'
    have := congrArg (·[0]?) h'
    simp [h] at this
  have no : ∀ {t : List Ch} {i : Nat} {c c' : Ch}, t[i]? = some c' → c' ≠ c →
      Scan (fun _ => none) t (.char (.single c)) i .no := by
    intro t i c c' h hne
    refine .leafNo rfl (fun h' => ?_) (.charNo fun x hx => ?_)
    · have h' : t.drop i = [] := h'
      have := congrArg (·[0]?) h'
      simp [h] at this
    · rw [h] at hx; cases hx; simpa [CharSet.isValid] using hne
  refine ⟨⟨.any, .any, .any, .any, (by intro _ _ h; cases h), rfl⟩, ?_, makeParser_of_sessionN (n := 12) rfl rfl, ?_,
    makeParser_of_sessionN (n := 12) rfl rfl⟩
  · exact .seq (yes rfl) (.seqMore (.list (yes rfl) (.repWait (.seq (yes rfl) (.seqMore (.leafMore rfl))))))
  · exact .seq (yes rfl) (.seq (.list (yes rfl) (.repStop (.seqNo (no rfl (by decide))))) (.seq (yes rfl) .seqNil))

/-- C80 (partial: tidy patterns without skipper): a parser object does not answer too early. As long as
what the pattern does depends on how the text goes on, it asks for more. -/
theorem C80_never_too_early_partial (env : Env) (els elf : Stale) (henv : env.tidy false els elf) (p : Pat)
    (ls lf : Stale) (hp : p.tidy false els elf false ls lf = true) (dst : Ref) (m : Mem) (ops : List SOp)
    (hu : Unfinished ops) (ho : Undecided env p (opsText ops)) (r : Res) (m' : Mem) (rest : List Ch)
    (h : MakeParserRun env p dst m (ops ++ [.consume]) (.ok (r, m', rest))) : r = .PARTIAL := by
  by_cases hr : r = .PARTIAL
  · exact hr
  exfalso
  obtain ⟨t1, t2, o1, o2, h1, h2, hne⟩ := ho
  have hu' : Unfinished (ops ++ [.consume]) := by
    intro b f hb
    exact hu b f (by simpa using hb)
  have key : ∀ t o, Peg env (opsText ops ++ t) p 0 o →
      (r = .SUCCESS ∧ o = some ((opsText ops).length - rest.length)) ∨ (r = .FAILURE ∧ o = none) := by
    intro t o hpeg
    have hP := C28_early_verdict_is_definitive env p dst m _ hu' r hr m' rest h t
    rw [opsText_append] at hP
    simp only [opsText, List.append_nil] at hP
    obtain ⟨o', h1, h2⟩ := ghost_peg henv hp hP.ghost_id
    cases hpeg.unique h1
    generalize hrest : rest ++ t = rt at h2
    cases h2 with
    | no => exact .inr ⟨rfl, rfl⟩
    | @ok j =>
      refine .inl ⟨rfl, ?_⟩
      have hl := congrArg List.length hrest
      have hj := hpeg.within (Nat.zero_le _) _ rfl
      simp only [List.length_append, List.length_drop] at hl hj
      congr 1
      omega
  rcases key t1 o1 h1 with ⟨hr1, e1⟩ | ⟨hr1, e1⟩ <;> rcases key t2 o2 h2 with ⟨hr2, e2⟩ | ⟨hr2, e2⟩
  · exact hne (e1.trans e2.symm)
  · rw [hr1] at hr2; cases hr2
  · rw [hr1] at hr2; cases hr2
  · exact hne (e1.trans e2.symm)

/-- C80 (partial: leaf patterns with something to match, symbols of one character left out): a parser
object asks for more exactly as long as what the pattern does depends on how the text goes on. -/
theorem C80_waits_iff_undecided_partial (env : Env) (els elf : Stale) (henv : env.tidy false els elf) (p : Pat)
    (ls lf : Stale) (hp : p.tidy false els elf false ls lf = true) (hs : p.Useful) (dst : Ref) (m : Mem)
    (ops : List SOp) (hu : Unfinished ops) (r : Res) (m' : Mem) (rest : List Ch)
    (h : MakeParserRun env p dst m (ops ++ [.consume]) (.ok (r, m', rest))) :
    r = .PARTIAL ↔ Undecided env p (opsText ops) := by
  refine ⟨fun hr => ?_, fun ho => C80_never_too_early_partial env els elf henv p ls lf hp dst m ops hu ho r m'
    rest h⟩
  have hl : p.isLeaf = true := by cases hs <;> rfl
  obtain ⟨o, ho⟩ := leaf_total (env := env) hl (opsText ops)
  have hm := (C80_asks_for_more_partial env els elf henv p ls lf hp dst m ops hu o ho r m' rest h).1 hr
  refine .of_open hs ?_
  cases hs <;> cases hm <;> assumption

/-- A signed number of one or two digits: after `-` and after `-1` it is not decided, after `-12` it
is, and the object answers. -/
example : Pat.Useful (.int 10 1 2) ∧ (Pat.int 10 1 2).tidy false .any .any false .any .any = true ∧
    Undecided (fun _ => none) (.int 10 1 2) [45, 49] ∧
    MakeParserRun (fun _ => none) (.int 10 1 2) .nil ⟨[], []⟩ ([.add [45] false, .consume, .add [49] false] ++ [.consume])
      (.ok (.PARTIAL, ⟨[], []⟩, [])) ∧
    MakeParserRun (fun _ => none) (.int 10 1 2) .nil ⟨[], []⟩
      ([.add [45] false, .consume, .add [49, 50, 51] false] ++ [.consume]) (.ok (.SUCCESS, ⟨[], []⟩, [51])) :=
  ⟨.int (by decide) (by decide), rfl,
    .of_open (.int (by decide) (by decide)) ⟨[45], [49], rfl, by simp, by simp; decide, by simp⟩,
    makeParser_of_sessionN (n := 9) rfl rfl, makeParser_of_sessionN (n := 9) rfl rfl⟩

/-- After `[` the pattern `lit('[') >> lit(']')` is not decided. -/
example : Undecided (fun _ => none) (.seq [.char (.single 91), .char (.single 93)]) [91] :=
  ⟨[], [93], _, _, .seq (.char rfl rfl) (.seqNo (.charNo (by simp))),
    .seq (.char rfl rfl) (.seq (.char rfl rfl) .seqNil), by simp⟩

/-! ### Skippers -/

/-- C80 (partial: tidy patterns, skippers decided by one character): the same under a skipper. What a
parser object for `apply_skipper(p, s)` answers follows from what can be said of the text so far about
`p` with `discard(*s)` written before it and before each of its sub-patterns outside `lexeme`. -/
theorem C80_skipper_partial (env : Env) (els elf : Stale) (henv : env.tidy true els elf) (p s : Pat)
    (hp : p.tidy true els elf false .any .any = true) (hs : s.oneChar = true) (dst : Ref) (m : Mem)
    (ops : List SOp) (hu : Unfinished ops) (a : Ans)
    (ha : Scan (spacedEnv s env) (opsText ops) (spaced s p) 0 a) (r : Res) (m' : Mem) (rest : List Ch)
    (h : MakeParserRun env (.withSkipper p s) dst m (ops ++ [.consume]) (.ok (r, m', rest))) :
    r = a.res ∧ ∀ j, a = .yes j → UpToSkipping env s (some rest) (some ((opsText ops).drop j)) := by
  have hm := ha.object_skip henv hp hs hu h
  by_cases hr : r = .PARTIAL
  · subst hr
    have := Ans.eq_more (hm.1 rfl)
    subst this
    exact ⟨rfl, nofun⟩
  · have hu' : Unfinished (ops ++ [.consume]) := by
      intro b f hb
      exact hu b f (by simpa using hb)
    have hP := C28_early_verdict_is_definitive env _ dst m _ hu' r hr m' rest h []
    rw [opsText_append] at hP
    simp only [opsText, List.append_nil] at hP
    obtain ⟨N, hN, _⟩ := oneChar_skips (env := env) (t := opsText ops) hs
    obtain ⟨i', S', rfl, ho⟩ := ghost_skip henv (oneChar_tidy s hs) (oneChar_noMark s hs) hN hp hP.ghost_id
    have hpeg := ha.peg
    cases a with
    | more => exact absurd (hm.2 rfl) hr
    | no =>
      have hpeg := (spaced_iff hN).1 hpeg
      cases ho with
      | ok a => cases a.unique hpeg
      | no => exact ⟨rfl, nofun⟩
    | yes j =>
      have hpeg := (spaced_iff hN).1 hpeg
      cases ho with
      | ok a b =>
        cases a.unique hpeg
        exact ⟨rfl, fun _ e => by cases e; exact up_to hN b⟩
      | no a => cases a.unique hpeg

/-- C80 (partial: as before): if the pattern with the skipping written out has an outcome on the text so
far, the object asks for more exactly if the outcome cannot be told yet. -/
theorem C80_skipper_asks_for_more_partial (env : Env) (els elf : Stale) (henv : env.tidy true els elf)
    (p s : Pat) (hp : p.tidy true els elf false .any .any = true) (hs : s.oneChar = true) (dst : Ref) (m : Mem)
    (ops : List SOp) (hu : Unfinished ops) (o : Option Nat)
    (ho : Peg (spacedEnv s env) (opsText ops) (spaced s p) 0 o) (r : Res) (m' : Mem) (rest : List Ch)
    (h : MakeParserRun env (.withSkipper p s) dst m (ops ++ [.consume]) (.ok (r, m', rest))) :
    r = .PARTIAL ↔ Scan (spacedEnv s env) (opsText ops) (spaced s p) 0 .more := by
  constructor
  · rintro rfl
    rcases ho.scan with h1 | h1
    · exact h1
    · have := (C80_skipper_partial env els elf henv p s hp hs dst m ops hu _ h1 _ _ _ h).1
      cases o <;> cases this
  · intro h1
    exact (C80_skipper_partial env els elf henv p s hp hs dst m ops hu _ h1 _ _ _ h).1

/-- C80 (partial: tidy patterns, skippers whose parser creates no rollback point when it is constructed
and which can be applied to every text): under a skipper too no verdict comes too early. As long as the
verdict depends on how the text goes on, a parser object asks for more. -/
theorem C80_skipper_never_too_early_partial (env : Env) (els elf : Stale) (henv : env.tidy true els elf)
    (p s : Pat) (hp : p.tidy true els elf false .any .any = true)
    (hs : s.tidy false els elf true .none .none = true) (hmk : s.noMark true = true)
    (hskip : ∀ t, ∃ rest, PegRest env (.rep 0 0 s) t (some rest)) (dst : Ref) (m : Mem) (ops : List SOp)
    (hu : Unfinished ops) (t1 t2 : List Ch) (j : Nat)
    (h1 : Peg (spacedEnv s env) (opsText ops ++ t1) (spaced s p) 0 (some j))
    (h2 : Peg (spacedEnv s env) (opsText ops ++ t2) (spaced s p) 0 none) (r : Res) (m' : Mem) (rest : List Ch)
    (h : MakeParserRun env (.withSkipper p s) dst m (ops ++ [.consume]) (.ok (r, m', rest))) :
    r = .PARTIAL := by
  by_cases hr : r = .PARTIAL
  · exact hr
  exfalso
  have hu' : Unfinished (ops ++ [.consume]) := by
    intro b f hb
    exact hu b f (by simpa using hb)
  have key : ∀ t o, Peg (spacedEnv s env) (opsText ops ++ t) (spaced s p) 0 o →
      (r = .SUCCESS ∧ o.isSome = true) ∨ (r = .FAILURE ∧ o = none) := by
    intro t o hpeg
    have hP := C28_early_verdict_is_definitive env _ dst m _ hu' r hr m' rest h t
    rw [opsText_append] at hP
    simp only [opsText, List.append_nil] at hP
    obtain ⟨N, hN⟩ := skip_function (t := opsText ops ++ t) fun u _ => hskip u
    obtain ⟨i', S', _, ho⟩ := ghost_skip henv hs hmk hN hp hP.ghost_id
    have hpeg := (spaced_iff hN).1 hpeg
    cases ho with
    | ok a => cases a.unique hpeg; exact .inl ⟨rfl, rfl⟩
    | no a => cases a.unique hpeg; exact .inr ⟨rfl, rfl⟩
  rcases key t1 _ h1 with ⟨hr1, _⟩ | ⟨_, e⟩
  · rcases key t2 _ h2 with ⟨_, e⟩ | ⟨hr2, _⟩
    · cases e
    · rw [hr1] at hr2; cases hr2
  · cases e

/-- `char_('a') >> char_('b')` with blanks and tabs skipped: after `a` and a blank nothing can be said, and
the object asks for more; after `a`, a blank and `b` it answers, and does not wait for blanks that may
follow. -/
example : let p : Pat := .seq [.char (.single 97), .char (.single 98)]
    let s : Pat := .alt [.char (.single 32), .char (.single 9)]
    (∃ els elf, Env.tidy (fun _ => none) true els elf ∧ p.tidy true els elf false .any .any = true) ∧
    s.oneChar = true ∧
    Scan (spacedEnv s (fun _ => none)) [97, 32] (spaced s p) 0 .more ∧
    MakeParserRun (fun _ => none) (.withSkipper p s) .nil ⟨[], []⟩
      ([.add [97] false, .consume, .add [32] false] ++ [.consume]) (.ok (.PARTIAL, ⟨[], []⟩, [])) ∧
    Scan (spacedEnv s (fun _ => none)) [97, 32, 98] (spaced s p) 0 (.yes 3) ∧
    MakeParserRun (fun _ => none) (.withSkipper p s) .nil ⟨[], []⟩
      ([.add [97] false, .consume, .add [32, 98] false] ++ [.consume]) (.ok (.SUCCESS, ⟨[], []⟩, [])) ∧
    Peg (spacedEnv s (fun _ => none)) ([97, 32] ++ [98]) (spaced s p) 0 (some 3) ∧
    Peg (spacedEnv s (fun _ => none)) ([97, 32] ++ [32]) (spaced s p) 0 none := by
  have yes : ∀ {env : Env} {t : List Ch} {i : Nat} {c : Ch}, t[i]? = some c → Scan env t (.char (.single c)) i
      (.yes (i + 1)) := by
    intro env t i c h
    refine .leaf rfl (fun h' => ?_) (.char h (by simp [CharSet.isValid]))
    have h' : t.drop i = [] := h'
    have := congrArg (·[0]?) h'
    simp [h] at this
  have no : ∀ {env : Env} {t : List Ch} {i : Nat} {c c' : Ch}, t[i]? = some c' → c' ≠ c →
      Scan env t (.char (.single c)) i .no := by
    intro env t i c c' h hne
    refine .leafNo rfl (fun h' => ?_) (.charNo fun x hx => ?_)
    · have h' : t.drop i = [] := h'
      have := congrArg (·[0]?) h'
      simp [h] at this
    · rw [h] at hx; cases hx; simpa [CharSet.isValid] using hne
  have none_ : ∀ {env : Env} {t : List Ch} {i : Nat} {c' : Ch}, t[i]? = some c' → c' ≠ 32 → c' ≠ 9 →
      Scan env t (.discard (.rep 0 0 (.alt [.char (.single 32), .char (.single 9)]))) i (.yes i) :=
    fun h h1 h2 => .discard (.repStop (.altNo (no h h1) (.altNo (no h h2) .altNil)))
  refine ⟨⟨.any, .any, (by intro _ _ h; cases h), rfl⟩, rfl, ?_, makeParser_of_sessionN (n := 20) rfl rfl, ?_,
    makeParser_of_sessionN (n := 20) rfl rfl, peg_of_eval (n := 20) rfl, peg_of_eval (n := 20) rfl⟩
  · exact .seq (none_ rfl (by decide) (by decide)) (.seqMore (.seq
      (.seq (none_ rfl (by decide) (by decide)) (.seq (yes rfl) .seqNil))
      (.seqMore (.seqMore (.discard (.repMore (by decide) (.alt (yes rfl)) (.repWait (.altMore (.leafMore rfl)))))))))
  · exact .seq (none_ rfl (by decide) (by decide)) (.seq (.seq
      (.seq (none_ rfl (by decide) (by decide)) (.seq (yes rfl) .seqNil))
      (.seq (.seq (.discard (.repMore (by decide) (.alt (yes rfl))
        (.repStop (.altNo (no rfl (by decide)) (.altNo (no rfl (by decide)) .altNil))))) (.seq (yes rfl) .seqNil))
        .seqNil)) .seqNil)

/-! ### Other patterns -/

/-- C80 is false in general: `eoi | pass` succeeds at once whatever the text, yet a parser object for it
waits for the first character. -/
theorem C80_refuted (m : Mem) :
    (∀ t, Parses (fun _ => none) (.alt [.eoi, .pass]) .nil m t (.ok (.SUCCESS, m, t))) ∧
    MakeParserRun (fun _ => none) (.alt [.eoi, .pass]) .nil m ([] ++ [.consume]) (.ok (.PARTIAL, m, [])) := by
  refine ⟨fun t => ?_, makeParser_of_sessionN (n := 9) rfl rfl⟩
  cases t with
  | nil => exact parses_of_parseN (n := 9) rfl
  | cons c t => exact parses_of_parseN (n := 9) rfl

/-- C80 is false of a set without characters too: it fails whatever the text, and waits for a character
to say so. -/
theorem C80_refuted_empty_set (m : Mem) :
    (∀ t, Parses (fun _ => none) (.char (.not .any)) .nil m t (.ok (.FAILURE, m, t))) ∧
    MakeParserRun (fun _ => none) (.char (.not .any)) .nil m ([] ++ [.consume]) (.ok (.PARTIAL, m, [])) := by
  refine ⟨fun t => ?_, makeParser_of_sessionN (n := 9) rfl rfl⟩
  cases t with
  | nil => exact parses_of_parseN (n := 9) rfl
  | cons c t => exact parses_of_parseN (n := 9) rfl

end Abu
