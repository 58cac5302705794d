import Verif.Props.Chunks
import Verif.Spec.Answers
import Verif.Proofs.Leaf
/-
From runs on the plain cursor to verdicts of all entry points; what assignments do to memory.
-/
namespace Abu

theorem Answers.of_parses {env p dst m t v} (h : Parses env p dst m t v) : Answers env p dst m t v :=
  ⟨h, fun ops hc ht => (C25_delivery_is_not_observable env p dst m ops hc v).2 (ht ▸ h)⟩

theorem Answers.unique {env p dst m t v v'} (h : Answers env p dst m t v)
    (h' : Answers env p dst m t v') : v = v' := h.1.unique h'.1

theorem Parses.of_run {env p dst m t st m1 S1 n r st' i S m' f}
    (hc : Abu.construct (topParser p) dst dst (⟨Cursor.whole t, m⟩ : World Cursor Mem) =
      .ok (st, ⟨⟨t, 0, S1, true⟩, m1⟩))
    (hr : run env n (topParser p) dst dst st (⟨⟨t, 0, S1, true⟩, m1⟩ : World Cursor Mem) =
      .ok ((r, st'), ⟨⟨t, i, S, f⟩, m'⟩)) :
    Parses env p dst m t (.ok (r, m', t.drop i)) := by
  refine parses_of_parseN (n := n) ?_
  simp only [parseN, hc, hr]

theorem Parses.of_error {env p dst m t st w n e}
    (hc : Abu.construct (topParser p) dst dst (⟨Cursor.whole t, m⟩ : World Cursor Mem) =
      .ok (st, w))
    (hr : run env n (topParser p) dst dst st w = .error e) (he : e ≠ .fuel) :
    Parses env p dst m t (.error e) := by
  refine parses_of_parseN (n := n) ?_
  simp only [parseN, hc, hr]

theorem two_pow_pred {w : Nat} (h : w ≠ 0) : (2 : Int) ^ w = 2 * 2 ^ (w - 1) := by
  obtain ⟨k, rfl⟩ := Nat.exists_eq_succ_of_ne_zero h
  rw [Nat.succ_eq_add_one, Nat.add_sub_cancel, Int.pow_succ, Int.mul_comm]

theorem NumKind.wrap_of_inRange {k : NumKind} {i : Int} (hk : k ≠ .signed 0) (h : k.inRange i) :
    k.wrap i = i := by
  cases k with
  | ideal => rfl
  | unsigned w => exact Int.emod_eq_of_lt h.1 h.2
  | signed w =>
    have hw : w ≠ 0 := fun h0 => hk (by rw [h0])
    obtain ⟨h1, h2⟩ := h
    simp only [NumKind.wrap, two_pow_pred hw]
    rw [Int.emod_eq_of_lt (by omega) (by omega)]
    omega

theorem Ty.convert_of_holds {ty : Ty} {v : Val} (h : ty.Holds v) : ty.convert v = .ok v := by
  cases ty <;> cases v <;> simp only [Ty.Holds] at h <;> try exact h.elim
  · simp only [Ty.convert, NumKind.wrap_of_inRange h.1 h.2]
  · rfl
  · rfl
  · subst h; simp [Ty.convert]

theorem Stores.assign {m dst v m'} (h : Stores m dst v m') : m.assign dst v = .ok m' := by
  cases h with
  | ignored => rfl
  | @value o ty v old hn hh ho =>
    cases ty with
    | coll t => exact absurd rfl (hn t)
    | _ =>
      simp only [Mem.assign, Ty.convert_of_holds hh, Mem.modify, ho, Val.update]
  | element hh ho => simp only [Mem.assign, Ty.convert_of_holds hh, Mem.modify, ho, Val.update]

/-! ### Characters -/

theorem run_char {env : Env} {s : CharSet} {dst bnd : Ref} {t : List Ch} {i : Nat} {S : List Nat}
    {m m' : Mem} {c : Ch} (hc : t[i]? = some c) (hv : s.isValid c = true)
    (hm : m.assign dst (.num c) = .ok m') :
    run env 1 (.char s) dst bnd .unit (⟨⟨t, i, S, true⟩, m⟩ : World Cursor Mem) =
      .ok ((.SUCCESS, .unit), ⟨⟨t, i + 1, S, true⟩, m'⟩) := by
  rw [run_succ_eq]
  simp only [body]
  rw [exec_guarded_char hc]
  simp only [hv, if_true, exec_mem]
  rw [show Store.op (MemOp.assign dst (.num c)) m = m.assign dst (.num c) from rfl, hm]
  simp only
  rw [exec_advance hc]
  rfl

theorem run_char_no {env : Env} {s : CharSet} {dst bnd : Ref} {t : List Ch} {i : Nat} {S : List Nat}
    {m : Mem} (h : ∀ c, t[i]? = some c → s.isValid c = false) :
    run env 1 (.char s) dst bnd .unit (⟨⟨t, i, S, true⟩, m⟩ : World Cursor Mem) =
      .ok ((.FAILURE, .unit), ⟨⟨t, i, S, true⟩, m⟩) := by
  rw [run_succ_eq]
  simp only [body]
  cases hc : t[i]? with
  | none => rw [exec_guarded_end (by simpa using hc)]; rfl
  | some c => rw [exec_guarded_char hc]; simp only [h c hc]; rfl

theorem run_charSymbol {env : Env} {tab : List (Ch × Val)} {dst bnd : Ref} {t : List Ch} {i : Nat}
    {S : List Nat} {m m' : Mem} {c : Ch} {v : Val} (hc : t[i]? = some c)
    (hv : tab.find? (fun e => e.1 == c) = some (c, v)) (hm : m.assign dst v = .ok m') :
    run env 1 (.charSymbol tab) dst bnd .unit (⟨⟨t, i, S, true⟩, m⟩ : World Cursor Mem) =
      .ok ((.SUCCESS, .unit), ⟨⟨t, i, S, true⟩, m'⟩) := by
  rw [run_succ_eq]
  simp only [body]
  rw [exec_guarded_char hc]
  simp only [hv, exec_mem]
  rw [show Store.op (MemOp.assign dst v) m = m.assign dst v from rfl, hm]
  rfl

theorem run_charSymbol_no {env : Env} {tab : List (Ch × Val)} {dst bnd : Ref} {t : List Ch} {i : Nat}
    {S : List Nat} {m : Mem} (h : ∀ c, t[i]? = some c → tab.find? (fun e => e.1 == c) = none) :
    run env 1 (.charSymbol tab) dst bnd .unit (⟨⟨t, i, S, true⟩, m⟩ : World Cursor Mem) =
      .ok ((.FAILURE, .unit), ⟨⟨t, i, S, true⟩, m⟩) := by
  rw [run_succ_eq]
  simp only [body]
  cases hc : t[i]? with
  | none => rw [exec_guarded_end (by simpa using hc)]; rfl
  | some c => rw [exec_guarded_char hc]; simp only [h c hc]; rfl

end Abu
