import Verif.Proofs.Session
import Verif.Proofs.Trie
import Verif.Proofs.Number
import Verif.Spec.Scan
/-
When parser objects for leaf patterns answer `PARTIAL`.
-/
namespace Abu

/-- A class of parsers whose objects hold, in the states `I st u`, after reading `u`, and ask for more
exactly if `W` holds of the text so far; `v`: the text before. -/
def LeafStep (p : Prog) (I : PState → List Ch → Prop) (W : List Ch → Prop) : Prop :=
  ∀ (μ : Type) [Store μ] (env : Env)
    (call : Prog → Ref → Ref → PState → World Cursor μ → Out Cursor μ (Res × PState))
    (dst bnd : Ref) (st : PState) (v u l : List Ch) (S : List Nat) (m : μ) (stp : Step) (w' : World Cursor μ),
    I st u → exec call (body env p dst bnd st) ⟨⟨v ++ u ++ l, (v ++ u).length, S, false⟩, m⟩ = .ok (stp, w') →
    match stp with
    | .cont st' => ∃ c l' S', l = c :: l' ∧ w'.ds = ⟨v ++ u ++ l, (v ++ u).length + 1, S', false⟩ ∧
        I st' (u ++ [c])
    | .ret r st' => (r = .PARTIAL → l = [] ∧ w'.ds = ⟨v ++ u, (v ++ u).length, S, false⟩ ∧ I st' u ∧ W u) ∧
        (r ≠ .PARTIAL → ¬ W (u ++ l))

section
variable {μ : Type} [Store μ]
  {call : Prog → Ref → Ref → PState → World Cursor μ → Out Cursor μ (Res × PState)}
  {u : List Ch} {S : List Nat} {m : μ}

theorem exec_guarded_wait {st A B} :
    exec call (guarded st A B) ⟨⟨u ++ [], u.length, S, false⟩, m⟩
      = .ok (.ret .PARTIAL st, ⟨⟨u, u.length, S, false⟩, m⟩) := by
  simp only [guarded, exec, List.append_nil]
  have he : DataSource.empty (⟨u, u.length, S, false⟩ : Cursor) = true := by
    show decide (u.length ≤ u.length) = true
    simp
  have hf : DataSource.final (⟨u, u.length, S, false⟩ : Cursor) = false := rfl
  simp [he, hf, exec]

theorem exec_guarded_here {st A B c l} :
    exec call (guarded st A B) ⟨⟨u ++ c :: l, u.length, S, false⟩, m⟩
      = exec call (B c) ⟨⟨u ++ c :: l, u.length, S, false⟩, m⟩ := by
  simp only [guarded, exec]
  have he : DataSource.empty (⟨u ++ c :: l, u.length, S, false⟩ : Cursor) = false := by
    show decide ((u ++ c :: l).length ≤ u.length) = false
    simp
  have hn : DataSource.next (⟨u ++ c :: l, u.length, S, false⟩ : Cursor) = some c := by
    show (u ++ c :: l)[u.length]? = some c
    simp
  simp only [he, Bool.false_eq_true, if_false, exec, hn]

theorem exec_advance_here {α : Type} {k : Cmd α} {c l} {m : μ} {S} :
    exec call (.advance k) ⟨⟨u ++ c :: l, u.length, S, false⟩, m⟩
      = exec call k ⟨⟨u ++ c :: l, u.length + 1, S, false⟩, m⟩ := by
  have ha : DataSource.advance (⟨u ++ c :: l, u.length, S, false⟩ : Cursor)
      = some ⟨u ++ c :: l, u.length + 1, S, false⟩ := by
    show (if u.length < (u ++ c :: l).length then _ else _) = _
    simp
  simp only [exec, ha]
end

theorem LeafStep.run {μ : Type} [Store μ] {p I W} (hp : LeafStep p I W) {env : Env} {dst bnd : Ref} {v : List Ch} :
    ∀ (n : Nat) {st u l S} {m : μ} {r st'} {w' : World Cursor μ}, I st u →
    Abu.run env n p dst bnd st ⟨⟨v ++ u ++ l, (v ++ u).length, S, false⟩, m⟩ = .ok ((r, st'), w') →
    (r = .PARTIAL → ∃ S', w'.ds = ⟨v ++ u ++ l, (v ++ u ++ l).length, S', false⟩ ∧ I st' (u ++ l) ∧ W (u ++ l)) ∧
      (r ≠ .PARTIAL → ¬ W (u ++ l)) := by
  intro n
  induction n with
  | zero => intro st u l S m r st' w' _ h; cases h
  | succ n ih =>
    intro st u l S m r st' w' hi h
    simp only [Abu.run] at h
    split at h
    · cases h
    · rename_i r1 st1 w1 he
      cases h
      obtain ⟨h1, h2⟩ := hp _ env _ dst bnd st v u l S m _ _ hi he
      refine ⟨fun hr => ?_, h2⟩
      obtain ⟨rfl, hw, hi', hW⟩ := h1 hr
      rw [List.append_nil, List.append_nil]
      exact ⟨S, hw, hi', hW⟩
    · rename_i st1 w1 he
      obtain ⟨c, l', S', rfl, hw, hi'⟩ := hp _ env _ dst bnd st v u l S m _ _ hi he
      obtain ⟨ds, m1⟩ := w1
      cases hw
      have e1 : u ++ c :: l' = (u ++ [c]) ++ l' := by simp
      have e2 : (v ++ u).length + 1 = (v ++ (u ++ [c])).length := by simp; omega
      have e3 : v ++ u ++ c :: l' = v ++ (u ++ [c]) ++ l' := by simp
      rw [e3, e2] at h
      rw [e1, e3]
      exact ih hi' h

/-- The same for whole calls of `consume`. -/
def Waiter (p : Prog) (I : PState → List Ch → Prop) (W : List Ch → Prop) : Prop :=
  ∀ (env : Env) (dst bnd : Ref) (n : Nat) (st : PState) (u l : List Ch) (S : List Nat)
    (m : Mem) (r : Res) (st' : PState) (w' : World Cursor Mem), I st u →
    Abu.run env n p dst bnd st ⟨⟨u ++ l, u.length, S, false⟩, m⟩ = .ok ((r, st'), w') →
    (r = .PARTIAL → ∃ S', w'.ds = ⟨u ++ l, (u ++ l).length, S', false⟩ ∧ I st' (u ++ l) ∧ W (u ++ l)) ∧
      (r ≠ .PARTIAL → ¬ W (u ++ l))

theorem LeafStep.waiter {p I W} (hp : LeafStep p I W) : Waiter p I W :=
  fun _ _ _ n _ _ _ _ _ _ _ _ hi h => hp.run (v := []) n hi h

/-- Discarding the value changes nothing. -/
theorem Waiter.discard {p I W} (hp : Waiter p I W) :
    Waiter (.discard p) (fun st u => ∃ c, st = .wrap c ∧ I c u) W := by
  rintro env dst bnd n st u l S m r st' w' ⟨c, rfl, hi⟩ h
  cases n with
  | zero => cases h
  | succ n =>
    simp only [Abu.run, body, exec] at h
    cases hr : Abu.run env n p .nil bnd c (⟨⟨u ++ l, u.length, S, false⟩, m⟩ : World Cursor Mem) with
    | error e => rw [hr] at h; cases h
    | ok x =>
      obtain ⟨⟨r1, c1⟩, w1⟩ := x
      rw [hr] at h
      cases h
      obtain ⟨h1, h2⟩ := hp env _ _ n _ _ _ _ _ _ _ _ hi hr
      refine ⟨fun hr => ?_, h2⟩
      obtain ⟨S', h3, h4, h5⟩ := h1 hr
      exact ⟨S', h3, ⟨c1, rfl, h4⟩, h5⟩

theorem Waiter.session {p I W} (hp : Waiter p I W) (hW : ∀ u l, W (u ++ l) → W u) {env : Env} {dst : Ref}
    {ops : List SOp} : ∀ {st u l S} {m m' : Mem} {r rest}, Unfinished ops → I st u →
    Session Cursor.addBuffer env p dst st ⟨⟨u ++ l, u.length, S, false⟩, m⟩ (ops ++ [.consume])
      (.ok (r, m', rest)) →
    (r = .PARTIAL ↔ W (u ++ l ++ opsText ops)) := by
  induction ops with
  | nil =>
    intro st u l S m m' r rest _ hi h
    simp only [opsText, List.append_nil]
    cases h with
    | verdict he hr _ =>
      obtain ⟨n, hn⟩ := he.2
      exact ⟨fun h => absurd h hr, fun h => absurd h ((hp env _ _ n _ _ _ _ _ _ _ _ hi hn).2 hr)⟩
    | more he h' =>
      obtain ⟨n, hn⟩ := he.2
      obtain ⟨S', _, _, h3⟩ := (hp env _ _ n _ _ _ _ _ _ _ _ hi hn).1 rfl
      cases h' with
      | nil => exact ⟨fun _ => h3, fun _ => rfl⟩
  | cons op ops ih =>
    intro st u l S m m' r rest hu hi h
    have hu' : Unfinished ops := fun b f hb => hu b f (List.mem_cons_of_mem _ hb)
    cases op with
    | consume =>
      simp only [opsText]
      cases h with
      | verdict he hr _ =>
        obtain ⟨n, hn⟩ := he.2
        exact ⟨fun h => absurd h hr, fun h => absurd (hW _ _ h) ((hp env _ _ n _ _ _ _ _ _ _ _ hi hn).2 hr)⟩
      | @more _ _ _ _ w' _ he h' =>
        obtain ⟨n, hn⟩ := he.2
        obtain ⟨S', h1, h2, _⟩ := (hp env _ _ n _ _ _ _ _ _ _ _ hi hn).1 rfl
        obtain ⟨ds, m1⟩ := w'
        cases h1
        have := ih (u := u ++ l) (l := []) hu' h2 (by rw [List.append_nil]; exact h')
        rwa [List.append_nil] at this
    | add b f =>
      obtain rfl : f = false := hu b f (by simp)
      cases h with
      | add ha h' =>
        cases ha
        have := ih (u := u) (l := l ++ b) hu' hi (by rw [← List.append_assoc]; exact h')
        simp only [opsText]
        simpa only [List.append_assoc] using this

/-- From the states to the user: what `Waiter` says of a parser object. -/
theorem Waiter.object {p : Pat} {I W} (hp : Waiter (topParser p) I W) (hW : ∀ u l, W (u ++ l) → W u)
    {env : Env} {dst : Ref} {m : Mem}
    (hc : ∀ st w, construct (topParser p) dst dst (⟨Cursor.start, m⟩ : World Cursor Mem) = .ok (st, w) →
      w.ds = Cursor.start ∧ I st [])
    {ops : List SOp} (hu : Unfinished ops) {r m' rest}
    (h : MakeParserRun env p dst m (ops ++ [.consume]) (.ok (r, m', rest))) :
    r = .PARTIAL ↔ W (opsText ops) := by
  rcases h.cursor with ⟨e, he, _⟩ | ⟨st, ⟨ds, m1⟩, hcon, h'⟩
  · cases he
  · obtain ⟨h1, h2⟩ := hc _ _ hcon
    cases h1
    exact hp.session hW (u := []) (l := []) hu h2 h'

/-! ### Leaves that look at one character -/

theorem leafStep_char (s : CharSet) : LeafStep (.char s) (fun st u => st = .unit ∧ u = []) (· = []) := by
  rintro μ _ env call dst bnd st v u l S m stp w' ⟨rfl, rfl⟩ h
  simp only [body] at h
  cases l with
  | nil => rw [exec_guarded_wait] at h; cases h; simp
  | cons c l =>
    rw [exec_guarded_here] at h
    split at h
    · rw [exec_mem] at h
      split at h
      · cases h
      · rw [exec_advance_here] at h; cases h; simp
    · cases h; simp

theorem leafStep_charSymbol (tab : List (Ch × Val)) :
    LeafStep (.charSymbol tab) (fun st u => st = .unit ∧ u = []) (· = []) := by
  rintro μ _ env call dst bnd st v u l S m stp w' ⟨rfl, rfl⟩ h
  simp only [body] at h
  cases l with
  | nil => rw [exec_guarded_wait] at h; cases h; simp
  | cons c l =>
    rw [exec_guarded_here] at h
    split at h
    · cases h; simp
    · rw [exec_mem] at h
      split at h
      · cases h
      · cases h; simp

theorem leafStep_eoi : LeafStep .eoi (fun st u => st = .unit ∧ u = []) (· = []) := by
  rintro μ _ env call dst bnd st v u l S m stp w' ⟨rfl, rfl⟩ h
  simp only [body] at h
  cases l with
  | nil => rw [exec_guarded_wait] at h; cases h; simp
  | cons c l => rw [exec_guarded_here] at h; cases h; simp

/-! ### Literals -/

theorem leafStep_strLit (s : List Ch) :
    LeafStep (.strLit s) (fun st u => st = .strLit u.length ∧ u <+: s) (fun u => u <+: s ∧ u ≠ s) := by
  rintro μ _ env call dst bnd st v u l S m stp w' ⟨rfl, x, rfl⟩ h
  simp only [body] at h
  cases x with
  | nil =>
    have : (u ++ ([] : List Ch))[u.length]? = none := by simp
    rw [this] at h
    cases h
    simp only [List.append_nil]
    refine ⟨nofun, fun _ ⟨hp, hn⟩ => hn ?_⟩
    have := hp.length_le
    simp only [List.length_append] at this
    have hl : l = [] := List.length_eq_zero_iff.1 (by omega)
    rw [hl, List.append_nil]
  | cons d x =>
    have : (u ++ d :: x)[u.length]? = some d := by simp
    rw [this] at h
    cases l with
    | nil =>
      simp only at h
      rw [exec_guarded_wait] at h; cases h
      simp
    | cons c l =>
      simp only at h
      rw [exec_guarded_here] at h
      by_cases hc : c = d
      · subst hc
        rw [if_pos rfl, exec_advance_here] at h
        cases h
        exact ⟨c, l, S, rfl, rfl, by simp, x, by simp⟩
      · rw [if_neg hc] at h
        cases h
        refine ⟨nofun, fun _ ⟨hp, _⟩ => hc ?_⟩
        rw [List.prefix_append_right_inj, List.cons_prefix_cons] at hp
        exact hp.1

/-! ### Numbers -/

theorem DigitsOpen.left {b mx u l} (h : DigitsOpen b mx (u ++ l)) : DigitsOpen b mx u :=
  ⟨fun c hc => h.1 c (by simp [hc]), h.2.imp id fun h => by simp only [List.length_append] at h; omega⟩

theorem digitsOpen_snoc {b mx u c} (h : DigitsOpen b mx u) (hc : digitValid b c = true) (hn : u.length + 1 ≠ mx) :
    DigitsOpen b mx (u ++ [c]) := by
  refine ⟨fun d hd => ?_, ?_⟩
  · rcases List.mem_append.1 hd with hd | hd
    · exact h.1 d hd
    · simp only [List.mem_singleton] at hd; exact hd ▸ hc
  · rcases h.2 with h | h
    · exact .inl h
    · right; simp only [List.length_append, List.length_singleton]; omega

theorem digitsOpen_full {b mx u c l} (hn : u.length + 1 = mx) : ¬ DigitsOpen b mx (u ++ c :: l) := by
  rintro ⟨_, h | h⟩
  · omega
  · simp only [List.length_append, List.length_cons] at h; omega

theorem digitsOpen_other {b mx u c l} (hc : ¬ digitValid b c = true) : ¬ DigitsOpen b mx (u ++ c :: l) :=
  fun h => hc (h.1 c (by simp))

theorem leafStep_uint (b mn mx : Nat) :
    LeafStep (.uint b mn mx) (fun st u => st = .uint u.length ∧ DigitsOpen b mx u) (DigitsOpen b mx) := by
  rintro μ _ env call dst bnd st v u l S m stp w' ⟨rfl, hu⟩ h
  simp only [body] at h
  cases l with
  | nil => rw [exec_guarded_wait] at h; cases h; simp [hu]
  | cons c l =>
    rw [exec_guarded_here] at h
    by_cases hc : digitValid b c = true
    · rw [if_pos hc, exec_mem] at h
      split at h
      · cases h
      · rw [exec_advance_here] at h
        split at h
        · rename_i hn
          cases h
          exact ⟨nofun, fun _ => digitsOpen_full hn⟩
        · rename_i hn
          cases h
          exact ⟨c, l, S, rfl, rfl, by simp, digitsOpen_snoc hu hc hn⟩
    · rw [if_neg hc] at h
      cases h
      refine ⟨fun hr => ?_, fun _ => digitsOpen_other hc⟩
      unfold enough at hr
      split at hr <;> cases hr

theorem SignedOpen.left {b mx u l} (h : SignedOpen b mx (u ++ l)) : SignedOpen b mx u := by
  obtain ⟨sg, ds, he, hs, hd⟩ := h
  rcases List.append_eq_append_iff.1 he with ⟨a, rfl, rfl⟩ | ⟨a, rfl, rfl⟩
  · have h0 : DigitsOpen b mx ([] ++ ds) := hd
    rcases hs with hs | hs
    · rw [List.append_eq_nil_iff] at hs
      exact ⟨[], [], by simp [hs.1], .inl rfl, h0.left⟩
    · cases u with
      | nil => exact ⟨[], [], rfl, .inl rfl, h0.left⟩
      | cons x u =>
        have : u = [] := by rcases hs with hs | hs <;> (simp at hs; exact hs.2.1)
        subst this
        refine ⟨[x], [], by simp, .inr ?_, h0.left⟩
        rcases hs with hs | hs
        · simp at hs; left; simp [hs.1]
        · simp at hs; right; simp [hs.1]
  · exact ⟨sg, a, rfl, hs, hd.left⟩

/-- The states of an `int` parser that has read `u`. -/
def IntAt (b mx : Nat) (st : PState) (u : List Ch) : Prop :=
  (st = .int 0 true false ∧ u = []) ∨
  ∃ sg ds neg, st = .int ds.length false neg ∧ u = sg ++ ds ∧ (sg = [43] ∨ sg = [45] ∨ (sg = [] ∧ ds ≠ [])) ∧
    DigitsOpen b mx ds

theorem IntAt.open {b mx st u} (h : IntAt b mx st u) (h0 : DigitsOpen b mx []) : SignedOpen b mx u := by
  rcases h with ⟨_, rfl⟩ | ⟨sg, ds, neg, _, rfl, hs, hd⟩
  · exact ⟨[], [], rfl, .inl rfl, h0⟩
  · refine ⟨sg, ds, rfl, ?_, hd⟩
    rcases hs with h | h | h
    · exact .inr (.inl h)
    · exact .inr (.inr h)
    · exact .inl h.1

theorem sign_not_digit {b : Nat} : digitValid b 43 = false ∧ digitValid b 45 = false := by
  have h1 : narrow 43 = 43 := by decide
  have h2 : narrow 45 = 45 := by decide
  constructor <;> simp only [digitValid, h1, h2] <;> split <;> simp <;> omega

theorem signedOpen_sign {b mx : Nat} {c x} (hc : c = 43 ∨ c = 45)
    (h : SignedOpen b mx (c :: x)) : DigitsOpen b mx x := by
  obtain ⟨sg, ds, he, hs, hd⟩ := h
  obtain ⟨d1, d2⟩ := sign_not_digit (b := b)
  rcases hs with rfl | rfl | rfl
  · simp only [List.nil_append] at he
    subst he
    have := hd.1 c (by simp)
    rcases hc with rfl | rfl
    · rw [d1] at this; cases this
    · rw [d2] at this; cases this
  · simp at he; rw [he.2]; exact hd
  · simp at he; rw [he.2]; exact hd

theorem signedOpen_plain {b mx : Nat} {c : Ch} {x} (h1 : c ≠ 43) (h2 : c ≠ 45)
    (h : SignedOpen b mx (c :: x)) : DigitsOpen b mx (c :: x) := by
  obtain ⟨sg, ds, he, hs, hd⟩ := h
  rcases hs with rfl | rfl | rfl
  · simp only [List.nil_append] at he; rw [he]; exact hd
  · simp at he; exact absurd he.1 h1
  · simp at he; exact absurd he.1 h2

theorem exec_negIf_ret {μ : Type} [Store μ]
    {call : Prog → Ref → Ref → PState → World Cursor μ → Out Cursor μ (Res × PState)}
    {neg dst r st} {w w' : World Cursor μ} {stp} (h : exec call (negIf neg dst (retS r st)) w = .ok (stp, w')) :
    stp = .ret r st := by
  unfold negIf at h
  split at h
  · rw [exec_mem] at h
    split at h
    · cases h
    · cases h; rfl
  · cases h; rfl

theorem leafStep_int (b mn mx : Nat) : LeafStep (.int b mn mx) (IntAt b mx) (SignedOpen b mx) := by
  obtain ⟨d1, d2⟩ := sign_not_digit (b := b)
  have h0 : ∀ ds, DigitsOpen b mx ds → DigitsOpen b mx [] := fun ds h => DigitsOpen.left (u := []) h
  rintro μ _ env call dst bnd st v u l S m stp w' hi h
  rcases hi with ⟨rfl, rfl⟩ | ⟨sg, ds, neg, rfl, rfl, hs, hd⟩
  · have ho : DigitsOpen b mx [] := ⟨by simp, by simp only [List.length_nil]; omega⟩
    simp only [body] at h
    cases l with
    | nil =>
      rw [exec_guarded_wait] at h; cases h
      exact ⟨fun _ => ⟨rfl, rfl, .inl ⟨rfl, rfl⟩, ⟨[], [], rfl, .inl rfl, ho⟩⟩, fun h => absurd rfl h⟩
    | cons c l =>
      rw [exec_guarded_here] at h
      split at h
      · rename_i hc
        obtain ⟨_, _, rfl⟩ := hc
        rw [exec_advance_here] at h
        cases h
        exact ⟨_, l, S, rfl, rfl, .inr ⟨[45], [], true, rfl, rfl, .inr (.inl rfl), ho⟩⟩
      · rename_i hc1
        split at h
        · rename_i hc
          obtain ⟨_, _, rfl⟩ := hc
          rw [exec_advance_here] at h
          cases h
          exact ⟨_, l, S, rfl, rfl, .inr ⟨[43], [], false, rfl, rfl, .inl rfl, ho⟩⟩
        · rename_i hc2
          have hc1 : c ≠ 45 := by simpa using hc1
          have hc2 : c ≠ 43 := by simpa using hc2
          by_cases hc : digitValid b c = true
          · rw [if_pos hc, exec_mem] at h
            split at h
            · cases h
            · rw [exec_advance_here] at h
              split at h
              · rename_i hn
                have := exec_negIf_ret h
                subst this
                exact ⟨nofun, fun _ ho' => digitsOpen_full (u := []) hn (signedOpen_plain hc2 hc1 ho')⟩
              · rename_i hn
                cases h
                exact ⟨c, l, S, rfl, rfl, .inr ⟨[], [c], false, rfl, rfl, .inr (.inr ⟨rfl, by simp⟩),
                  digitsOpen_snoc (u := []) ho hc hn⟩⟩
          · rw [if_neg hc] at h
            have := exec_negIf_ret h
            subst this
            exact ⟨fun h => absurd h (enough_ne _ _),
              fun _ ho' => digitsOpen_other (u := []) hc (signedOpen_plain hc2 hc1 ho')⟩
  · have hopen : ∀ x, SignedOpen b mx (sg ++ ds ++ x) → DigitsOpen b mx (ds ++ x) := by
      intro x ho
      rcases hs with rfl | rfl | ⟨rfl, hne⟩
      · exact signedOpen_sign (.inl rfl) ho
      · exact signedOpen_sign (.inr rfl) ho
      · cases ds with
        | nil => exact absurd rfl hne
        | cons c ds =>
          have hc := hd.1 c (by simp)
          exact signedOpen_plain (by rintro rfl; rw [d1] at hc; cases hc)
            (by rintro rfl; rw [d2] at hc; cases hc) ho
    have hi : IntAt b mx (.int ds.length false neg) (sg ++ ds) := .inr ⟨sg, ds, neg, rfl, rfl, hs, hd⟩
    simp only [body] at h
    cases l with
    | nil =>
      rw [exec_guarded_wait] at h; cases h
      exact ⟨fun _ => ⟨rfl, rfl, hi, hi.open (h0 _ hd)⟩, fun h => absurd rfl h⟩
    | cons c l =>
      rw [exec_guarded_here] at h
      rw [if_neg (by rintro ⟨_, h, _⟩; cases h), if_neg (by rintro ⟨_, h, _⟩; cases h)] at h
      by_cases hc : digitValid b c = true
      · rw [if_pos hc, exec_mem] at h
        split at h
        · cases h
        · rw [exec_advance_here] at h
          split at h
          · rename_i hn
            have := exec_negIf_ret h
            subst this
            exact ⟨nofun, fun _ ho' => digitsOpen_full hn (hopen _ ho')⟩
          · rename_i hn
            cases h
            refine ⟨c, l, S, rfl, rfl, .inr ⟨sg, ds ++ [c], neg, by simp, by simp, ?_, digitsOpen_snoc hd hc hn⟩⟩
            rcases hs with h | h | h
            · exact .inl h
            · exact .inr (.inl h)
            · exact .inr (.inr ⟨h.1, by simp⟩)
      · rw [if_neg hc] at h
        have := exec_negIf_ret h
        subst this
        exact ⟨fun h => absurd h (enough_ne _ _), fun _ ho' => digitsOpen_other hc (hopen _ ho')⟩

/-! ### Symbols -/

theorem Node.descend_append : ∀ (u v : List Ch) (n : Node), n.descend (u ++ v) = (n.descend u).bind (·.descend v)
  | [], _, _ => rfl
  | c :: u, v, n => by
    simp only [List.cons_append, Node.descend]
    cases n.child.find c with
    | none => rfl
    | some n' => exact Node.descend_append u v n'

theorem Node.descend_of_get : ∀ (u v : List Ch) (n : Node), (n.get (u ++ v)).isSome = true →
    ∃ n', n.descend u = some n' ∧ (n'.get v).isSome = true
  | [], _, n, h => ⟨n, rfl, h⟩
  | c :: u, v, n, h => by
    simp only [List.cons_append, Node.get] at h
    simp only [Node.descend]
    cases hf : n.child.find c with
    | none => rw [hf] at h; cases h
    | some n' => rw [hf] at h; exact Node.descend_of_get u v n' h

theorem Node.get_descend : ∀ (u v : List Ch) {n n' : Node}, n.descend u = some n' → n.get (u ++ v) = n'.get v
  | [], _, _, _, h => by cases h; rfl
  | c :: u, v, n, n', h => by
    simp only [Node.descend] at h
    simp only [List.cons_append, Node.get]
    cases hf : n.child.find c with
    | none => rw [hf] at h; cases h
    | some n1 => rw [hf] at h; exact Node.get_descend u v h

/-- No node is there without a key. -/
def Node.Fruitful (n : Node) : Prop :=
  ∀ u n', u ≠ [] → n.descend u = some n' → ∃ key, (n.get (u ++ key)).isSome = true

theorem Kids.alter_inv {c : Ch} {f : Node → Option Node} : ∀ {k k' : Kids}, k.alter c f = some k' →
    ∃ n, f (k.at c) = some n
  | .nil, k', h => by
    simp only [Kids.alter, Option.map_eq_some_iff] at h
    obtain ⟨n, h, _⟩ := h
    exact ⟨n, h⟩
  | .cons d n rest, k', h => by
    simp only [Kids.alter] at h
    simp only [Kids.at, Kids.find]
    split at h
    · rename_i hd
      rw [if_pos hd]
      simp only [Option.map_eq_some_iff] at h
      obtain ⟨n, h, _⟩ := h
      exact ⟨n, h⟩
    · rename_i hd
      rw [if_neg hd]
      simp only [Option.map_eq_some_iff] at h
      obtain ⟨r, h, _⟩ := h
      exact Kids.alter_inv h

theorem Node.insert_descend : ∀ {key : List Ch} {v : Val} {n n' : Node}, n.insert key v = some n' →
    ∀ u, (n'.descend u).isSome = true → (n.descend u).isSome = true ∨ u <+: key
  | _, _, _, _, _, [], _ => .inr List.nil_prefix
  | [], v, .mk val kids, n', h, d :: u, hb => by
    simp only [Node.insert] at h
    split at h
    · cases h
    · cases h; exact .inl hb
  | c :: key, v, .mk val kids, n', h, d :: u, hb => by
    simp only [Node.insert, Option.map_eq_some_iff] at h
    obtain ⟨k, hk, rfl⟩ := h
    have := Kids.alter_inv hk
    obtain ⟨n1, h1⟩ := this
    obtain ⟨k', h3, h4⟩ := Kids.alter_some h1
    rw [hk] at h3
    cases h3
    simp only [Node.descend, Node.child, h4] at hb ⊢
    by_cases hd : d = c
    · subst hd
      simp only [if_true] at hb
      rcases Node.insert_descend h1 u hb with h | h
      · simp only [Kids.at] at h
        cases hf : kids.find d with
        | some x => rw [hf] at h; exact .inl h
        | none =>
          rw [hf] at h
          cases u with
          | nil => exact .inr (by simp)
          | cons a u => cases h
      · exact .inr (by simpa using h)
    · rw [if_neg hd] at hb
      exact .inl hb

theorem foldlM_fruitful : ∀ (entries : List (List Ch × Val)) (n root : Node), n.Fruitful →
    (entries.map Prod.fst).Nodup → (∀ e ∈ entries, n.get e.1 = none) →
    entries.foldlM (fun n e => n.insert e.1 e.2) n = some root → root.Fruitful
  | [], n, root, hf, _, _, h => by cases h; exact hf
  | (key, v) :: entries, n, root, hf, hnd, hn, h => by
    obtain ⟨n', h1, h2⟩ := Node.insert_some (v := v) (hn (key, v) (by simp))
    rw [List.map_cons, List.nodup_cons] at hnd
    have hne : ∀ e ∈ entries, e.1 ≠ key := fun e he h => hnd.1 (List.mem_map.2 ⟨e, he, h⟩)
    rw [List.foldlM_cons] at h
    change (n.insert key v).bind _ = _ at h
    rw [h1] at h
    refine foldlM_fruitful entries n' root ?_ hnd.2 (by
      intro e he
      rw [h2, if_neg (hne e he)]
      exact hn e (by simp [he])) h
    intro u x hu hx
    rcases Node.insert_descend h1 u (by rw [hx]; rfl) with h3 | ⟨w, rfl⟩
    · obtain ⟨y, hy⟩ := Option.isSome_iff_exists.1 h3
      obtain ⟨k, hk⟩ := hf u y hu hy
      refine ⟨k, ?_⟩
      rw [h2]
      split
      · rfl
      · exact hk
    · exact ⟨w, by rw [h2, if_pos rfl]; rfl⟩

theorem buildTrie_fruitful {entries : List (List Ch × Val)} (hnd : (entries.map Prod.fst).Nodup) {root}
    (h : buildTrie entries = some root) : root.Fruitful := by
  refine foldlM_fruitful entries _ root ?_ hnd (fun e _ => Node.get_empty _) h
  intro u x hu hx
  cases u with
  | nil => exact absurd rfl hu
  | cons c u => cases hx

/-- Some key goes on after `u`. -/
def KeyOpen (root : Node) (u : List Ch) : Prop :=
  u = [] ∨ ∃ x, x ≠ [] ∧ (root.get (u ++ x)).isSome = true

theorem KeyOpen.left {root u l} (h : KeyOpen root (u ++ l)) : KeyOpen root u := by
  rcases h with h | ⟨x, hx, h⟩
  · exact .inl (List.append_eq_nil_iff.1 h).1
  · exact .inr ⟨l ++ x, by simp [hx], by rwa [← List.append_assoc]⟩

theorem NodeOpen.left {root u l} (h : NodeOpen root (u ++ l)) : NodeOpen root u := by
  rcases h with h | ⟨n, hn, h⟩
  · exact .inl (List.append_eq_nil_iff.1 h).1
  · rw [Node.descend_append] at hn
    cases hu : root.descend u with
    | none => rw [hu] at hn; cases hn
    | some n' =>
      rw [hu] at hn
      cases l with
      | nil => cases hn; exact .inr ⟨_, hu, h⟩
      | cons c l =>
        refine .inr ⟨_, hu, .inr fun hk => ?_⟩
        simp [Node.descend, hk, Kids.find] at hn

theorem nodeOpen_iff {root : Node} (hf : root.Fruitful) {u : List Ch} : NodeOpen root u ↔ KeyOpen root u := by
  constructor
  · rintro (rfl | ⟨n, hn, h⟩)
    · exact .inl rfl
    · cases u with
      | nil => exact .inl rfl
      | cons a u =>
        right
        cases hk : n.child with
        | nil =>
          obtain ⟨key, hg⟩ := hf _ _ (by simp) hn
          refine ⟨key, ?_, hg⟩
          rintro rfl
          rw [Node.get_descend _ [] hn] at hg
          rcases h with h | h
          · simp [Node.get, h] at hg
          · exact h hk
        | cons d nd rest =>
          have hd2 : root.descend (a :: u ++ [d]) = some nd := by
            rw [Node.descend_append, hn]
            simp [Node.descend, hk, Kids.find]
          obtain ⟨key, hg⟩ := hf _ _ (by simp) hd2
          exact ⟨[d] ++ key, by simp, by rwa [← List.append_assoc]⟩
  · rintro (rfl | ⟨x, hx, h⟩)
    · exact .inl rfl
    · obtain ⟨n, hn, hg⟩ := Node.descend_of_get u x root h
      refine .inr ⟨n, hn, .inr fun hk => ?_⟩
      cases x with
      | nil => exact hx rfl
      | cons c x => simp [Node.get, hk, Kids.find] at hg

theorem leafStep_symbol (root : Node) : LeafStep (.symbol root)
    (fun st u => ∃ n v, st = .symbol n v ∧ root.descend u = some n ∧ NodeOpen root u) (NodeOpen root) := by
  rintro μ _ env call dst bnd st v0 u l S m stp w' ⟨n, v, rfl, hn, ho⟩ h
  have hstop : ∀ {w w' : World Cursor μ} {stp}, exec call (match v with
      | some x => .mem (.assign dst x) (.commit (retS .SUCCESS (.symbol n v)))
      | none => retS .FAILURE (.symbol n v) : Cmd Step) w = .ok (stp, w') →
      ∃ r, r ≠ .PARTIAL ∧ stp = .ret r (.symbol n v) := by
    intro w w' stp h
    cases v with
    | none => cases h; exact ⟨.FAILURE, by simp, rfl⟩
    | some x =>
      simp only [exec] at h
      split at h
      · cases h
      · split at h
        · cases h
        · cases h; exact ⟨.SUCCESS, by simp, rfl⟩
  simp only [body] at h
  cases l with
  | nil =>
    rw [exec_guarded_wait] at h; cases h
    exact ⟨fun _ => ⟨rfl, rfl, ⟨n, v, rfl, hn, ho⟩, ho⟩, fun h => absurd rfl h⟩
  | cons c l =>
    rw [exec_guarded_here] at h
    cases hc : n.child.find c with
    | none =>
      simp only [hc] at h
      obtain ⟨r, hr, rfl⟩ := hstop h
      refine ⟨fun h => absurd h hr, fun _ hk => ?_⟩
      rcases hk with hk | ⟨x, hx, hk⟩
      · simp at hk
      · rw [Node.descend_append, hn] at hx
        simp [Node.descend, hc] at hx
    | some n' =>
      simp only [hc] at h
      rw [exec_advance_here] at h
      have hd : root.descend (u ++ [c]) = some n' := by
        rw [Node.descend_append, hn]
        simp [Node.descend, hc]
      cases hv : n'.val with
      | none =>
        simp only [hv] at h
        cases h
        exact ⟨c, l, S, rfl, rfl, n', _, rfl, hd, .inr ⟨n', hd, .inl hv⟩⟩
      | some x =>
        simp only [hv] at h
        cases he : n'.child with
        | nil =>
          have : ∀ {w w' : World Cursor μ} {stp}, exec call (.mem (.assign dst x) (retS .SUCCESS (.symbol n' v))) w
              = .ok (stp, w') → stp = .ret .SUCCESS (.symbol n' v) := by
            intro w w' stp h
            rw [exec_mem] at h
            split at h
            · cases h
            · cases h; rfl
          have hs : stp = .ret .SUCCESS (.symbol n' v) := by
            simp only [he, Kids.isEmpty, if_true] at h
            split at h
            · simp only [exec] at h
              split at h
              · cases h
              · split at h
                · cases h
                · cases h; rfl
            · exact this h
          subst hs
          refine ⟨nofun, fun _ hk => ?_⟩
          rcases hk with hk | ⟨y, hy, hk⟩
          · simp at hk
          · have e : u ++ c :: l = (u ++ [c]) ++ l := by simp
            rw [e, Node.descend_append, hd] at hy
            cases l with
            | nil =>
              cases hy
              rcases hk with hk | hk
              · rw [hv] at hk; cases hk
              · exact hk he
            | cons d z => simp [Node.descend, he, Kids.find] at hy
        | cons d nd rest =>
          simp only [he, Kids.isEmpty, Bool.false_eq_true, if_false] at h
          have hlast : NodeOpen root (u ++ [c]) := .inr ⟨n', hd, .inr (by rw [he]; nofun)⟩
          split at h
          · simp only [exec] at h
            split at h
            · cases h
            · rename_i ds hds
              cases h
              cases S with
              | nil => cases hds
              | cons s S =>
                cases hds
                exact ⟨c, l, _, rfl, rfl, n', some x, rfl, hd, hlast⟩
          · cases h
            exact ⟨c, l, _, rfl, rfl, n', some x, rfl, hd, hlast⟩

end Abu
