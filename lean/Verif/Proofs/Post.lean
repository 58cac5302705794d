import Verif.Proofs.Session
/-
Postconditions of commands run on the plain cursor.
-/
namespace Abu

section
variable {μ : Type} [Store μ] {E : Err → Prop}
  {call : Prog → Ref → Ref → PState → World Cursor μ → Out Cursor μ (Res × PState)}

/-- The outcome is an acceptable error, or satisfies the postcondition. -/
def Post {α : Type} (E : Err → Prop) (Q : α → World Cursor μ → Prop) : Out Cursor μ α → Prop
  | .error e => E e
  | .ok (a, w) => Q a w

theorem Post.imp {α : Type} {E E' : Err → Prop} {Q Q' : α → World Cursor μ → Prop}
    {x : Out Cursor μ α}
    (h : Post E Q x) (hE : ∀ e, E e → E' e) (hQ : ∀ a w, Q a w → Q' a w) : Post E' Q' x := by
  cases x with
  | error e => exact hE e h
  | ok y => exact hQ _ _ h

theorem post_bind {α β : Type} {Q : β → World Cursor μ → Prop} {x : Cmd α} {f : α → Cmd β}
    {w : World Cursor μ} (h : Post E (fun a w' => Post E Q (exec call (f a) w')) (exec call x w)) :
    Post E Q (exec call (x.bind f) w) := by
  rw [exec_bind]
  cases hx : exec call x w with
  | error e => rw [hx] at h; exact h
  | ok y => obtain ⟨a, w'⟩ := y; rw [hx] at h; exact h

theorem post_mem {α : Type} {Q : α → World Cursor μ → Prop} {o : MemOp} {k : Cmd α}
    {w : World Cursor μ} (hE : ∀ e, Store.op o w.mem = .error e → E e)
    (h : ∀ m, Store.op o w.mem = .ok m → Post E Q (exec call k ⟨w.ds, m⟩)) :
    Post E Q (exec call (.mem o k) w) := by
  simp only [exec]
  cases hx : Store.op o w.mem with
  | error e => exact hE e hx
  | ok m => exact h m hx

theorem post_call {α : Type} {Q : α → World Cursor μ → Prop} {p d b st}
    {k : Res → PState → Cmd α} {w : World Cursor μ}
    (h : Post E (fun x w' => Post E Q (exec call (k x.1 x.2) w')) (call p d b st w)) :
    Post E Q (exec call (.call p d b st k) w) := by
  simp only [exec]
  cases hx : call p d b st w with
  | error e => rw [hx] at h; exact h
  | ok y => obtain ⟨⟨r, s⟩, w'⟩ := y; rw [hx] at h; exact h

theorem post_guarded {Q : Step → World Cursor μ → Prop} {st A B} {w : World Cursor μ}
    (hA : w.ds.text.length ≤ w.ds.pos → w.ds.final = true → Post E Q (exec call A w))
    (hP : w.ds.text.length ≤ w.ds.pos → w.ds.final = false → Q (.ret .PARTIAL st) w)
    (hB : ∀ c, w.ds.text[w.ds.pos]? = some c → Post E Q (exec call (B c) w)) :
    Post E Q (exec call (guarded st A B) w) := by
  simp only [guarded, exec]
  have he : DataSource.empty w.ds = decide (w.ds.text.length ≤ w.ds.pos) := rfl
  have hf : DataSource.final w.ds = w.ds.final := rfl
  by_cases h : w.ds.text.length ≤ w.ds.pos
  · simp only [he, h, decide_true, if_true, exec, hf]
    cases hfin : w.ds.final
    · exact hP h hfin
    · exact hA h hfin
  · simp only [he, h, decide_false, Bool.false_eq_true, if_false, exec]
    have hn : DataSource.next w.ds = w.ds.text[w.ds.pos]? := rfl
    rw [hn]
    have hlt : w.ds.pos < w.ds.text.length := by omega
    rw [List.getElem?_eq_getElem hlt]
    exact hB _ (List.getElem?_eq_getElem hlt)

theorem exec_advance {α : Type} {k : Cmd α} {w : World Cursor μ} {c : Ch}
    (h : w.ds.text[w.ds.pos]? = some c) :
    exec call (.advance k) w = exec call k ⟨{ w.ds with pos := w.ds.pos + 1 }, w.mem⟩ := by
  have hlt : w.ds.pos < w.ds.text.length := by
    rw [List.getElem?_eq_some_iff] at h; exact h.1
  have : DataSource.advance w.ds = some { w.ds with pos := w.ds.pos + 1 } := by
    show (if w.ds.pos < w.ds.text.length then _ else _) = _
    rw [if_pos hlt]
  simp only [exec, this]

theorem exec_prepare {α : Type} {k : Cmd α} {w : World Cursor μ} :
    exec call (.prepare k) w =
      exec call k ⟨{ w.ds with saved := w.ds.pos :: w.ds.saved }, w.mem⟩ := rfl

theorem exec_commit {α : Type} {k : Cmd α} {w : World Cursor μ} {p ps}
    (h : w.ds.saved = p :: ps) :
    exec call (.commit k) w = exec call k ⟨{ w.ds with pos := p, saved := ps }, w.mem⟩ := by
  obtain ⟨⟨t, i, s, f⟩, m⟩ := w
  simp only at h
  subst h
  rfl

theorem exec_cancel {α : Type} {k : Cmd α} {w : World Cursor μ} {p ps}
    (h : w.ds.saved = p :: ps) :
    exec call (.cancel k) w = exec call k ⟨{ w.ds with saved := ps }, w.mem⟩ := by
  obtain ⟨⟨t, i, s, f⟩, m⟩ := w
  simp only at h
  subst h
  rfl

/-- Reasoning about a run: one iteration, then the rest. -/
theorem post_run_succ {env n p dst bnd st} {w : World Cursor μ}
    {Q : Res × PState → World Cursor μ → Prop}
    (h : Post E (fun s w' => match s with
        | .ret r st' => Q (r, st') w'
        | .cont st' => Post E Q (run env n p dst bnd st' w'))
      (exec (run env n) (body env p dst bnd st) w)) :
    Post E Q (run env (n + 1) p dst bnd st w) := by
  rw [run_succ_andThen]
  cases hx : exec (run env n) (body env p dst bnd st) w with
  | error e => rw [hx] at h; exact h
  | ok y =>
    obtain ⟨s, w'⟩ := y
    rw [hx] at h
    cases s with
    | ret r st' => exact h
    | cont st' => exact h

end

end Abu
