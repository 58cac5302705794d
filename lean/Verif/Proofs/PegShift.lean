import Verif.Spec.Grammar
/-
The grammar semantics only looks at the text from the current position on.
-/
namespace Abu

section
variable {env : Env} {t : List Ch}

theorem KeyAt.drop {root d i key} : KeyAt root (t.drop d) i key ↔ KeyAt root t (i + d) key := by
  unfold KeyAt; rw [List.drop_drop, Nat.add_comm]

theorem Peg.shift {d p i o} (h : Peg env (t.drop d) p i o) : Peg env t p (i + d) (o.map (· + d)) := by
  have hdd : ∀ i, (t.drop d).drop i = t.drop (i + d) := fun i => by rw [List.drop_drop, Nat.add_comm]
  have hge : ∀ i, (t.drop d)[i]? = t[i + d]? := fun i => by rw [List.getElem?_drop, Nat.add_comm]
  induction h with
  | @char s i c h1 h2 =>
    rw [hge] at h1
    have := Peg.char (env := env) h1 h2
    rw [Option.map_some, Nat.add_right_comm]; exact this
  | charNo h => exact .charNo (by simpa [hge] using h)
  | @charSymbol m i c v h1 h2 =>
    rw [hge] at h1
    have := Peg.charSymbol (env := env) h1 h2
    rw [Option.map_some, Nat.add_right_comm]; exact this
  | charSymbolNo h => exact .charSymbolNo (by simpa [hge] using h)
  | strLit h =>
    rw [hdd] at h
    have := Peg.strLit (env := env) h
    rw [Option.map_some, Nat.add_right_comm]; exact this
  | strLitNo h => rw [hdd] at h; exact .strLitNo h
  | symbol h1 h2 =>
    rw [KeyAt.drop] at h1
    have := Peg.symbol (env := env) h1 fun k hk => h2 k (KeyAt.drop.2 hk)
    rw [Option.map_some, Nat.add_right_comm]; exact this
  | symbolNo h => exact .symbolNo fun k hk => h k (KeyAt.drop.2 hk)
  | uint h =>
    rw [hdd] at h ⊢
    have := Peg.uint (env := env) h
    rw [Option.map_some, Nat.add_right_comm]; exact this
  | uintNo h => rw [hdd] at h; exact .uintNo h
  | @int b mn mx i j h1 h2 =>
    rw [hdd] at h1 h2 ⊢
    have := Peg.int (env := env) (t := t) (b := b) (mn := mn) (mx := mx) (i := i + d) (j := j + d)
      (by omega) h2
    rw [Option.map_some, Nat.add_right_comm]; exact this
  | @intNo b mn mx i j h1 h2 =>
    rw [hdd] at h1 h2
    exact .intNo (j := j + d) (by omega) h2
  | eoi h => rw [List.length_drop] at h; exact .eoi (by omega)
  | eoiNo h => rw [List.length_drop] at h; exact .eoiNo (by omega)
  | pass => exact .pass
  | fail => exact .fail
  | seqNil => exact .seqNil
  | seqNo _ ih => exact .seqNo ih
  | seq _ _ ih1 ih2 => exact .seq ih1 ih2
  | altNil => exact .altNil
  | alt _ ih => exact .alt ih
  | altNo _ _ ih1 ih2 => exact .altNo ih1 ih2
  | repStop _ ih => exact .repStop ih
  | repFew h _ ih => exact .repFew h ih
  | repLast _ ih => exact .repLast ih
  | repMore h _ _ ih1 ih2 => exact .repMore h ih1 ih2
  | opt _ ih => exact .opt ih
  | optNo _ ih => exact .optNo ih
  | not _ ih => exact .not ih
  | notNo _ ih => exact .notNo ih
  | discard _ ih => exact .discard ih
  | lexeme _ ih => exact .lexeme ih
  | bindDst _ ih => exact .bindDst ih
  | construct _ ih => exact .construct ih
  | action _ ih => exact .action ih
  | except _ _ ih1 ih2 => exact .except ih1 ih2
  | exceptNo _ ih => exact .exceptNo ih
  | listNil _ ih => exact .listNil ih
  | list _ _ ih1 ih2 => exact .list ih1 ih2
  | recur hq _ ih => exact .recur hq ih

theorem Peg.unshift' {p k o} (h : Peg env t p k o) : ∀ {d i}, k = i + d →
    ∃ o', o = o'.map (· + d) ∧ Peg env (t.drop d) p i o' := by
  have hdd : ∀ d i, t.drop (i + d) = (t.drop d).drop i := fun d i => by
    rw [List.drop_drop, Nat.add_comm]
  have hge : ∀ d i, t[i + d]? = (t.drop d)[i]? := fun d i => by
    rw [List.getElem?_drop, Nat.add_comm]
  have hsome : ∀ {d j : Nat} {o : Option Nat}, some j = Option.map (· + d) o →
      ∃ j', o = some j' ∧ j = j' + d := by
    intro d j o h; cases o with
    | none => cases h
    | some j' => cases h; exact ⟨_, rfl, rfl⟩
  have hnone : ∀ {d : Nat} {o : Option Nat}, none = Option.map (· + d) o → o = none := by
    intro d o h; cases o with
    | none => rfl
    | some j' => cases h
  induction h with
  | @char s i c h1 h2 =>
    rintro d i rfl
    rw [hge] at h1
    exact ⟨some (i + 1), by simp only [Option.map_some]; rw [Nat.add_right_comm], .char h1 h2⟩
  | charNo h => rintro d i rfl; exact ⟨none, rfl, .charNo (by rwa [hge] at h)⟩
  | @charSymbol m i c v h1 h2 =>
    rintro d i rfl
    rw [hge] at h1
    exact ⟨some (i + 1), by simp only [Option.map_some]; rw [Nat.add_right_comm], .charSymbol h1 h2⟩
  | charSymbolNo h => rintro d i rfl; exact ⟨none, rfl, .charSymbolNo (by rwa [hge] at h)⟩
  | @strLit s i h =>
    rintro d i rfl
    rw [hdd] at h
    exact ⟨some (i + s.length), by simp only [Option.map_some]; rw [Nat.add_right_comm], .strLit h⟩
  | strLitNo h => rintro d i rfl; rw [hdd] at h; exact ⟨none, rfl, .strLitNo h⟩
  | @symbol root i key h1 h2 =>
    rintro d i rfl
    exact ⟨some (i + key.length), by simp only [Option.map_some]; rw [Nat.add_right_comm],
      .symbol (KeyAt.drop.2 h1) fun k hk => h2 k (KeyAt.drop.1 hk)⟩
  | symbolNo h =>
    rintro d i rfl; exact ⟨none, rfl, .symbolNo fun k hk => h k (KeyAt.drop.1 hk)⟩
  | @uint b mn mx i h =>
    rintro d i rfl
    rw [hdd] at h
    exact ⟨some (i + digitRun b mx ((t.drop d).drop i)), by
      simp only [Option.map_some]; rw [Nat.add_right_comm, hdd], .uint h⟩
  | uintNo h => rintro d i rfl; rw [hdd] at h; exact ⟨none, rfl, .uintNo h⟩
  | @int b mn mx i j h1 h2 =>
    rintro d i rfl
    have hj : j = (i + signLen ((t.drop d).drop i)) + d := by rw [← hdd]; omega
    subst hj
    rw [hdd] at h2
    exact ⟨_, by simp only [Option.map_some]; rw [Nat.add_right_comm, hdd], .int rfl h2⟩
  | @intNo b mn mx i j h1 h2 =>
    rintro d i rfl
    have hj : j = (i + signLen ((t.drop d).drop i)) + d := by rw [← hdd]; omega
    subst hj
    rw [hdd] at h2
    exact ⟨none, rfl, .intNo rfl h2⟩
  | eoi h => rintro d i rfl; exact ⟨some i, rfl, .eoi (by rw [List.length_drop]; omega)⟩
  | eoiNo h => rintro d i rfl; exact ⟨none, rfl, .eoiNo (by rw [List.length_drop]; omega)⟩
  | pass => rintro d i rfl; exact ⟨some i, rfl, .pass⟩
  | fail => rintro d i rfl; exact ⟨none, rfl, .fail⟩
  | seqNil => rintro d i rfl; exact ⟨some i, rfl, .seqNil⟩
  | seqNo _ ih =>
    rintro d i rfl
    obtain ⟨o', e, h⟩ := ih (d := d) (i := i) rfl
    rw [hnone e] at h
    exact ⟨none, rfl, .seqNo h⟩
  | seq _ _ ih1 ih2 =>
    rintro d i rfl
    obtain ⟨o', e, h⟩ := ih1 (d := d) (i := i) rfl
    obtain ⟨j', rfl, e2⟩ := hsome e
    obtain ⟨o'', e3, h2⟩ := ih2 e2
    exact ⟨o'', e3, .seq h h2⟩
  | altNil => rintro d i rfl; exact ⟨none, rfl, .altNil⟩
  | alt _ ih =>
    rintro d i rfl
    obtain ⟨o', e, h⟩ := ih (d := d) (i := i) rfl
    obtain ⟨j', rfl, e2⟩ := hsome e
    exact ⟨_, e, .alt h⟩
  | altNo _ _ ih1 ih2 =>
    rintro d i rfl
    obtain ⟨o', e, h⟩ := ih1 (d := d) (i := i) rfl
    rw [hnone e] at h
    obtain ⟨o'', e3, h2⟩ := ih2 (d := d) (i := i) rfl
    exact ⟨o'', e3, .altNo h h2⟩
  | repStop _ ih =>
    rintro d i rfl
    obtain ⟨o', e, h⟩ := ih (d := d) (i := i) rfl
    rw [hnone e] at h
    exact ⟨some i, rfl, .repStop h⟩
  | repFew hm _ ih =>
    rintro d i rfl
    obtain ⟨o', e, h⟩ := ih (d := d) (i := i) rfl
    rw [hnone e] at h
    exact ⟨none, rfl, .repFew hm h⟩
  | repLast _ ih =>
    rintro d i rfl
    obtain ⟨o', e, h⟩ := ih (d := d) (i := i) rfl
    obtain ⟨j', rfl, e2⟩ := hsome e
    exact ⟨_, e, .repLast h⟩
  | repMore hm _ _ ih1 ih2 =>
    rintro d i rfl
    obtain ⟨o', e, h⟩ := ih1 (d := d) (i := i) rfl
    obtain ⟨j', rfl, e2⟩ := hsome e
    obtain ⟨o'', e3, h2⟩ := ih2 e2
    exact ⟨o'', e3, .repMore hm h h2⟩
  | opt _ ih =>
    rintro d i rfl
    obtain ⟨o', e, h⟩ := ih (d := d) (i := i) rfl
    obtain ⟨j', rfl, e2⟩ := hsome e
    exact ⟨_, e, .opt h⟩
  | optNo _ ih =>
    rintro d i rfl
    obtain ⟨o', e, h⟩ := ih (d := d) (i := i) rfl
    rw [hnone e] at h
    exact ⟨some i, rfl, .optNo h⟩
  | not _ ih =>
    rintro d i rfl
    obtain ⟨o', e, h⟩ := ih (d := d) (i := i) rfl
    rw [hnone e] at h
    exact ⟨some i, rfl, .not h⟩
  | notNo _ ih =>
    rintro d i rfl
    obtain ⟨o', e, h⟩ := ih (d := d) (i := i) rfl
    obtain ⟨j', rfl, e2⟩ := hsome e
    exact ⟨none, rfl, .notNo h⟩
  | discard _ ih =>
    rintro d i rfl; obtain ⟨o', e, h⟩ := ih (d := d) (i := i) rfl; exact ⟨_, e, .discard h⟩
  | lexeme _ ih =>
    rintro d i rfl; obtain ⟨o', e, h⟩ := ih (d := d) (i := i) rfl; exact ⟨_, e, .lexeme h⟩
  | bindDst _ ih =>
    rintro d i rfl; obtain ⟨o', e, h⟩ := ih (d := d) (i := i) rfl; exact ⟨_, e, .bindDst h⟩
  | construct _ ih =>
    rintro d i rfl; obtain ⟨o', e, h⟩ := ih (d := d) (i := i) rfl; exact ⟨_, e, .construct h⟩
  | action _ ih =>
    rintro d i rfl; obtain ⟨o', e, h⟩ := ih (d := d) (i := i) rfl; exact ⟨_, e, .action h⟩
  | except _ _ ih1 ih2 =>
    rintro d i rfl
    obtain ⟨o', e, h⟩ := ih1 (d := d) (i := i) rfl
    rw [hnone e] at h
    obtain ⟨o'', e3, h2⟩ := ih2 (d := d) (i := i) rfl
    exact ⟨o'', e3, .except h h2⟩
  | exceptNo _ ih =>
    rintro d i rfl
    obtain ⟨o', e, h⟩ := ih (d := d) (i := i) rfl
    obtain ⟨j', rfl, e2⟩ := hsome e
    exact ⟨none, rfl, .exceptNo h⟩
  | listNil _ ih =>
    rintro d i rfl
    obtain ⟨o', e, h⟩ := ih (d := d) (i := i) rfl
    rw [hnone e] at h
    exact ⟨some i, rfl, .listNil h⟩
  | list _ _ ih1 ih2 =>
    rintro d i rfl
    obtain ⟨o', e, h⟩ := ih1 (d := d) (i := i) rfl
    obtain ⟨j', rfl, e2⟩ := hsome e
    obtain ⟨o'', e3, h2⟩ := ih2 e2
    exact ⟨o'', e3, .list h h2⟩
  | recur hq _ ih =>
    rintro d i rfl; obtain ⟨o', e, h⟩ := ih (d := d) (i := i) rfl; exact ⟨_, e, .recur hq h⟩

end

theorem peg_of_rest {env : Env} {p t i rest} (h : PegRest env p (t.drop i) (some rest)) :
    ∃ j, Peg env t p i (some j) ∧ rest = t.drop j := by
  obtain ⟨j, h, rfl⟩ := h
  have := h.shift
  rw [Nat.zero_add] at this
  exact ⟨_, this, by rw [List.drop_drop, Nat.add_comm]⟩

theorem peg_of_none {env : Env} {p t i} (h : PegRest env p (t.drop i) none) :
    Peg env t p i none := by
  have := Peg.shift (show Peg env (t.drop i) p 0 none from h)
  rwa [Nat.zero_add] at this

theorem rest_of_peg {env : Env} {p t i j} (h : Peg env t p i (some j)) :
    PegRest env p (t.drop i) (some (t.drop j)) := by
  obtain ⟨o', e, h2⟩ := h.unshift' (d := i) (i := 0) (by omega)
  cases o' with
  | none => cases e
  | some j' =>
    cases e
    exact ⟨j', h2, by rw [List.drop_drop, Nat.add_comm]⟩

theorem none_of_peg {env : Env} {p t i} (h : Peg env t p i none) :
    PegRest env p (t.drop i) none := by
  obtain ⟨o', e, h2⟩ := h.unshift' (d := i) (i := 0) (by omega)
  cases o' with
  | none => exact h2
  | some j' => cases e

theorem PegRest.unique {env p t o o'} (h : PegRest env p t o) (h' : PegRest env p t o') : o = o' := by
  cases o <;> cases o'
  · rfl
  · obtain ⟨j, h2, _⟩ := h'; cases Peg.unique h h2
  · obtain ⟨j, h2, _⟩ := h; cases Peg.unique h' h2
  · obtain ⟨j, h2, rfl⟩ := h
    obtain ⟨j', h3, rfl⟩ := h'
    cases h2.unique h3; rfl

end Abu
