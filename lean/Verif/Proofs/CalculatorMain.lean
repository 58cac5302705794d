import Verif.Spec.CalculatorMain
import Verif.Props.Calculator
import Verif.Props.Terminate
/-
The program around the calculator.
-/
namespace Abu

theorem getLine_append {l s : List Ch} (h : 10 ∉ l) : getLine (l ++ 10 :: s) = (l, s) := by
  induction l with
  | nil => simp [getLine]
  | cons c l ih =>
    have hc : c ≠ 10 := fun hc => h (by simp [hc])
    have hl : 10 ∉ l := fun hl => h (by simp [hl])
    simp [getLine, hc, ih hl]

theorem getLine_last {l : List Ch} (h : 10 ∉ l) : getLine l = (l, []) := by
  induction l with
  | nil => rfl
  | cons c l ih =>
    have hc : c ≠ 10 := fun hc => h (by simp [hc])
    have hl : 10 ∉ l := fun hl => h (by simp [hl])
    simp [getLine, hc, ih hl]

theorem getLine_shorter : ∀ (s : List Ch), (getLine s).1 ≠ [] → (getLine s).2.length < s.length := by
  intro s
  induction s with
  | nil => intro h; exact absurd rfl h
  | cons c s ih =>
    intro h
    by_cases hc : c = 10
    · simp [getLine, hc] at h
    · have hs : (getLine (c :: s)).2 = (getLine s).2 := by simp [getLine, hc]
      rw [hs]
      by_cases hn : (getLine s).1 = []
      · have : (getLine s).2.length ≤ s.length := by
          cases s with
          | nil => simp [getLine]
          | cons d s =>
            by_cases hd : d = 10
            · simp [getLine, hd]
            · simp [getLine, hd] at hn
        simp only [List.length_cons]; omega
      · have := ih hn
        simp only [List.length_cons]; omega

/-- One round. -/
theorem CalcMain.reply {inp l r out e} (hl : (getLine inp).1 = l) (hn : l ≠ []) (hc : ∀ c ∈ l, IsChar c)
    (hr : Reply l r) (h : CalcMain (getLine inp).2 out e) : CalcMain inp (.prompt :: r :: out) e := by
  subst hl
  cases hr with
  | value h1 h2 h3 =>
    obtain ⟨m, ha, hv, _⟩ := C43_value _ _ _ _ _ _ hc h1 h2 h3 ⟨[.num 0], []⟩ 0 (by simp)
    exact .value hn ha.1 hv h
  | failure h1 h2 =>
    obtain ⟨m, rest, ha, _⟩ := C43_no_expression _ hc h1 h2 ⟨[.num 0], []⟩ 0 (by simp)
    exact .failure hn ha.1 nofun h

theorem CalcMain.replies {inp ls} (h : Lines inp ls) (hc : ∀ c ∈ inp, IsChar c) :
    ∀ {rs}, Replies ls rs → CalcMain inp (dialogue rs) none := by
  induction h with
  | done => intro rs hr; cases hr; exact .quit rfl
  | blank => intro rs hr; cases hr; exact .quit (by simp [getLine])
  | line hn hl _ ih =>
    intro rs hr
    cases hr with
    | cons h1 h2 =>
      refine CalcMain.reply (l := _) (by rw [getLine_append hl]) hn (fun c h => hc c (by simp [h])) h1 ?_
      rw [getLine_append hl]
      exact ih (fun c h => hc c (by simp [h])) h2
  | last hn hl =>
    intro rs hr
    cases hr with
    | cons h1 h2 =>
      cases h2
      refine CalcMain.reply (l := _) (by rw [getLine_last hl]) hn hc h1 ?_
      rw [getLine_last hl]
      exact .quit rfl

theorem CalcMain.unique {inp out e} (h : CalcMain inp out e) :
    ∀ {out' e'}, CalcMain inp out' e' → out = out' ∧ e = e' := by
  induction h with
  | quit h => intro out' e' h'; cases h' <;> first | exact ⟨rfl, rfl⟩ | contradiction
  | error hn hp =>
    intro out' e' h'
    cases h' with
    | quit h => exact absurd h hn
    | error _ hp' => cases hp.unique hp'; exact ⟨rfl, rfl⟩
    | value _ hp' => cases hp.unique hp'
    | unset _ hp' => cases hp.unique hp'
    | failure _ hp' => cases hp.unique hp'
  | value hn hp hv _ ih =>
    intro out' e' h'
    cases h' with
    | quit h => exact absurd h hn
    | error _ hp' => cases hp.unique hp'
    | value _ hp' hv' h' =>
      cases hp.unique hp'
      rw [hv] at hv'
      cases hv'
      obtain ⟨rfl, rfl⟩ := ih h'
      exact ⟨rfl, rfl⟩
    | unset _ hp' hv' => cases hp.unique hp'; exact absurd hv (hv' _)
    | failure _ hp' hr => cases hp.unique hp'; exact absurd rfl hr
  | unset hn hp hv =>
    intro out' e' h'
    cases h' with
    | quit h => exact absurd h hn
    | error _ hp' => cases hp.unique hp'
    | value _ hp' hv' => cases hp.unique hp'; exact absurd hv' (hv _)
    | unset => exact ⟨rfl, rfl⟩
    | failure _ hp' hr => cases hp.unique hp'; exact absurd rfl hr
  | failure hn hp hr _ ih =>
    intro out' e' h'
    cases h' with
    | quit h => exact absurd h hn
    | error _ hp' => cases hp.unique hp'
    | value _ hp' => cases hp.unique hp'; exact absurd rfl hr
    | unset _ hp' => cases hp.unique hp'; exact absurd rfl hr
    | failure _ hp' _ h' =>
      obtain ⟨rfl, rfl⟩ := ih h'
      exact ⟨rfl, rfl⟩

/-! ### Termination -/

theorem calcEnv_eq {id q} (h : calcEnv id = some q) : q = calcAddsub := by
  unfold calcEnv at h
  split at h
  · cases h; rfl
  · cases h

theorem calculator_ends (dst : Ref) (m : Mem) (t : List Ch) : ∃ v, Parses calcEnv calculator dst m t v := by
  have h0 : ∀ {l : List Nat}, (∀ a ∈ l, a = 0) → ∀ a ∈ l, calcEnv a ≠ none := by
    intro l hl a ha
    rw [hl a ha]; simp [calcEnv]
  have henv : calcEnv.LoopsEat fun _ => true :=
    ⟨fun id q h => by rw [calcEnv_eq h]; decide, fun id q h _ => by rw [calcEnv_eq h]; decide,
      fun id q h => h0 (by rw [calcEnv_eq h]; decide)⟩
  have hleft : WellFounded (LeftCalls calcEnv fun _ => true) := by
    refine ⟨fun b => ⟨_, ?_⟩⟩
    rintro a ⟨q, h, ha⟩
    rw [calcEnv_eq h, show calcAddsub.heads (fun _ => true) = [] by decide] at ha
    cases ha
  rcases C38_parse_terminates calcEnv (fun _ => true) calculator (by decide) (h0 (by decide)) henv hleft dst m t
    with ⟨r, m', rest, _, h⟩ | ⟨e, _, h⟩
  · exact ⟨_, h⟩
  · exact ⟨_, h⟩

theorem calcMain_ends : ∀ (n : Nat) (inp : List Ch), inp.length ≤ n → ∃ out e, CalcMain inp out e := by
  intro n
  induction n with
  | zero =>
    intro inp h
    obtain rfl : inp = [] := List.eq_nil_of_length_eq_zero (by omega)
    exact ⟨_, _, .quit rfl⟩
  | succ n ih =>
    intro inp h
    by_cases hn : (getLine inp).1 = []
    · exact ⟨_, _, .quit hn⟩
    · obtain ⟨out, e, ho⟩ := ih (getLine inp).2 (by have := getLine_shorter inp hn; omega)
      obtain ⟨v, hv⟩ := calculator_ends (.at 0 [] .int) ⟨[.num 0], []⟩ (getLine inp).1
      match v, hv with
      | .error e', hv => exact ⟨_, _, .error hn hv⟩
      | .ok (r, m, rest), hv =>
        by_cases hr : r = .SUCCESS
        · subst hr
          by_cases hx : ∃ x, m.objs[0]? = some (.num x)
          · obtain ⟨x, hx⟩ := hx
            exact ⟨_, _, .value hn hv hx ho⟩
          · exact ⟨_, _, .unset hn hv fun x h => hx ⟨x, h⟩⟩
        · exact ⟨_, _, .failure hn hv hr ho⟩

/-! ### Every input -/

/-- What `getLine` splits off. -/
theorem getLine_split : ∀ (s : List Ch), 10 ∉ (getLine s).1 ∧
    (s = (getLine s).1 ++ 10 :: (getLine s).2 ∨ s = (getLine s).1 ∧ (getLine s).2 = [])
  | [] => ⟨by simp [getLine], .inr (by simp [getLine])⟩
  | c :: s => by
    obtain ⟨h1, h2⟩ := getLine_split s
    by_cases hc : c = 10
    · subst hc
      simp [getLine]
    · have hc' : ¬ 10 = c := fun h => hc h.symm
      simp only [getLine, hc, if_false, List.mem_cons, not_or, List.cons_append, List.cons.injEq, true_and]
      exact ⟨⟨hc', h1⟩, h2⟩

theorem Lines.of_nil {ls} (h : Lines [] ls) : ls = [] := by
  generalize hs : ([] : List Ch) = s at h
  cases h with
  | done => rfl
  | blank => rfl
  | line => simp at hs
  | last h => exact absurd hs.symm h

theorem Lines.next {s ls} (hn : (getLine s).1 ≠ []) (h : Lines (getLine s).2 ls) : Lines s ((getLine s).1 :: ls) := by
  obtain ⟨h1, h2 | ⟨h2, h3⟩⟩ := getLine_split s
  · have := Lines.line hn h1 h
    rwa [← h2] at this
  · rw [h3] at h
    have hs : s ≠ [] := by rw [h2]; exact hn
    have h4 : 10 ∉ s := by rw [h2]; exact h1
    rw [← h2]
    rw [h.of_nil]
    exact .last hs h4

theorem Lines.none {s} (hn : (getLine s).1 = []) : Lines s [] := by
  obtain ⟨_, h2 | ⟨h2, _⟩⟩ := getLine_split s
  · rw [h2, hn]
    exact .blank
  · rw [h2, hn]
    exact .done

theorem getLine_chars {s : List Ch} (hc : ∀ c ∈ s, IsChar c) :
    (∀ c ∈ (getLine s).1, IsChar c) ∧ ∀ c ∈ (getLine s).2, IsChar c := by
  obtain ⟨_, h2 | ⟨h2, h3⟩⟩ := getLine_split s
  · exact ⟨fun c h => hc c (by rw [h2]; simp [h]), fun c h => hc c (by rw [h2]; simp [h])⟩
  · exact ⟨fun c h => hc c (by rw [h2]; exact h), fun c h => by rw [h3] at h; cases h⟩

theorem calcMain_every : ∀ (n : Nat) (inp : List Ch), inp.length ≤ n → (∀ c ∈ inp, IsChar c) →
    ∃ done more rs err, Lines inp (done ++ more) ∧ Rights done rs ∧ CalcMain inp (dialogue rs) err ∧
      ((err = none ∧ more = []) ∨ (∃ e l more', (e = .ubOverflow ∨ e = .ubUninit) ∧ err = some e ∧
        more = l :: more' ∧ ∃ a, Meets l a ∧ a.value = none)) := by
  intro n
  induction n with
  | zero =>
    intro inp h _
    obtain rfl : inp = [] := List.eq_nil_of_length_eq_zero (by omega)
    exact ⟨[], [], [], none, .done, .nil, .quit rfl, .inl ⟨rfl, rfl⟩⟩
  | succ n ih =>
    intro inp h hc
    by_cases hn : (getLine inp).1 = []
    · exact ⟨[], [], [], none, .none hn, .nil, .quit hn, .inl ⟨rfl, rfl⟩⟩
    obtain ⟨hc1, hc2⟩ := getLine_chars hc
    obtain ⟨done, more, rs, err, h1, h2, h3, h4⟩ := ih (getLine inp).2
      (by have := getLine_shorter inp hn; omega) hc2
    have hlines := Lines.next hn h1
    rcases C43_every_text (getLine inp).1 hc1 ⟨[.num 0], []⟩ 0 (by simp) with
      ⟨hb, e, he, ha⟩ | ⟨w, e, s, rest, v, m, hl, hx, ha, hv, _⟩ | ⟨hs, m, rest, ha, _⟩
    · exact ⟨[], (getLine inp).1 :: (done ++ more), [], some e, hlines, .nil, .error hn ha.1,
        .inr ⟨e, _, _, he, rfl, rfl, hb⟩⟩
    · exact ⟨(getLine inp).1 :: done, more, .value v :: rs, err, hlines, .cons (.value hl hx) h2,
        .value hn ha.1 hv h3, h4⟩
    · exact ⟨(getLine inp).1 :: done, more, .failure :: rs, err, hlines, .cons (.failure hs) h2,
        .failure hn ha.1 nofun h3, h4⟩

/-! ### When it is defined -/

theorem Lines.inv {s ls} (h : Lines s ls) : ((getLine s).1 = [] ∧ ls = []) ∨
    ((getLine s).1 ≠ [] ∧ ∃ ls', ls = (getLine s).1 :: ls' ∧ Lines (getLine s).2 ls') := by
  cases h with
  | done => exact .inl ⟨rfl, rfl⟩
  | blank => exact .inl ⟨by simp [getLine], rfl⟩
  | line hn hl h => rw [getLine_append hl]; exact .inr ⟨hn, _, rfl, h⟩
  | last hn hl => rw [getLine_last hl]; exact .inr ⟨hn, _, rfl, .done⟩

theorem Lines.unique : ∀ (n : Nat) {s ls ls' : List _}, s.length ≤ n → Lines s ls → Lines s ls' → ls = ls' := by
  intro n
  induction n with
  | zero =>
    intro s ls ls' hs h h'
    obtain rfl : s = [] := List.eq_nil_of_length_eq_zero (by omega)
    rw [h.of_nil, h'.of_nil]
  | succ n ih =>
    intro s ls ls' hs h h'
    rcases h.inv with ⟨h1, h2⟩ | ⟨h1, l, h2, h3⟩ <;> rcases h'.inv with ⟨h1', h2'⟩ | ⟨h1', l', h2', h3'⟩
    · rw [h2, h2']
    · exact absurd h1 h1'
    · exact absurd h1' h1
    · rw [h2, h2', ih (by have := getLine_shorter s h1; omega) h3 h3']

theorem CalcMain.meets {inp out err} (h : CalcMain inp out err) : ∀ {ls}, err = none → (∀ c ∈ inp, IsChar c) →
    Lines inp ls → ∀ l ∈ ls, ∀ e, Meets l e → e.value.isSome := by
  have key : ∀ {inp : List Ch} {out err r m rest}, (∀ c ∈ inp, IsChar c) →
      Parses calcEnv calculator (.at 0 [] .int) ⟨[.num 0], []⟩ (getLine inp).1 (.ok (r, m, rest)) →
      (∀ {ls}, err = none → (∀ c ∈ (getLine inp).2, IsChar c) → Lines (getLine inp).2 ls →
        ∀ l ∈ ls, ∀ e, Meets l e → e.value.isSome) →
      err = none → CalcMain (getLine inp).2 out err → ∀ {ls}, Lines inp ls →
        ∀ l ∈ ls, ∀ e, Meets l e → e.value.isSome := by
    intro inp out err r m rest hc hp ih he _ ls hl l hm e h
    obtain ⟨hc1, hc2⟩ := getLine_chars hc
    rcases hl.inv with ⟨_, h2⟩ | ⟨_, ls', h2, h3⟩
    · rw [h2] at hm; cases hm
    · rw [h2] at hm
      rcases List.mem_cons.1 hm with rfl | hm
      · exact (C43_defined_iff _ hc1 _ 0 (by simp)).1 ⟨_, _, _, .of_parses hp⟩ e h
      · exact ih he hc2 h3 l hm e h
  induction h with
  | quit hq =>
    intro ls _ _ hl l hm
    rcases hl.inv with ⟨_, h2⟩ | ⟨h1, _⟩
    · rw [h2] at hm; cases hm
    · exact absurd hq h1
  | error => intro ls he; cases he
  | value _ hp _ hrec ih => intro ls he hc hl; exact key hc hp ih he hrec hl
  | unset => intro ls he; cases he
  | failure _ hp _ hrec ih => intro ls he hc hl; exact key hc hp ih he hrec hl

end Abu
