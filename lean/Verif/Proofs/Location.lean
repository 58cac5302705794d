import Verif.Proofs.Region
import Verif.Spec.Memory
/-
Parts of memory that parsers do not touch.
-/
namespace Abu

theorem update_get {f p q v v'} (hd : Diverge p q) (h : Val.update f p v = .ok v') :
    Val.get q v' = Val.get q v := by
  induction hd generalizing v v' with
  | @here a b p q hne =>
    cases v with
    | tup vs =>
      simp only [Val.update] at h
      split at h
      · cases h
      · split at h
        · cases h
        · cases h
          simp only [Val.get, List.getElem?_set_ne hne]
    | _ => cases h
  | @there a p q hd ih =>
    cases v with
    | tup vs =>
      simp only [Val.update] at h
      split at h
      · cases h
      · rename_i x hx
        split at h
        · cases h
        · rename_i y hy
          cases h
          have hlt := (List.getElem?_eq_some_iff.1 hx).1
          simp only [Val.get, List.getElem?_set_self hlt, hx]
          exact ih hy
    | _ => cases h

theorem modify_look {m m' : Mem} {o p f o' q ty} (hm : Ref.Misses o' q (.at o p ty))
    (h : m.modify o p f = .ok m') : m'.look o' q = m.look o' q := by
  simp only [Mem.modify] at h
  split at h
  · cases h
  · rename_i v hv
    split at h
    · cases h
    · rename_i v' hv'
      cases h
      simp only [Mem.look, Mem.read]
      by_cases ho : o = o'
      · subst ho
        have hlt := (List.getElem?_eq_some_iff.1 hv).1
        rw [List.getElem?_set_self hlt, hv]
        rcases hm with hm | hm
        · exact absurd rfl hm
        · exact update_get hm hv'
      · rw [List.getElem?_set_ne ho]

theorem assign_look {m m' : Mem} {d v o q} (hm : d.Misses o q) (h : m.assign d v = .ok m') :
    m'.look o q = m.look o q := by
  unfold Mem.assign at h
  split at h
  · cases h; rfl
  · split at h
    · cases h
    · exact modify_look hm h
  · split at h
    · cases h
    · exact modify_look hm h

theorem onNum_look {m m' : Mem} {d f o q} (hm : d.Misses o q) (h : m.onNum d f = .ok m') :
    m'.look o q = m.look o q := by
  unfold Mem.onNum at h
  split at h
  · cases h; rfl
  · exact modify_look hm h
  · cases h

theorem act_look {m m' : Mem} {a l d b o q} (hd : a.void = false → d.Misses o q)
    (hb : a.param = true → b.Misses o q) (h : m.act a l d b = .ok m') :
    m'.look o q = m.look o q := by
  unfold Mem.act at h
  split at h
  · cases h
  · cases h
  · split at h
    · cases h
    · simp only at h
      split at h
      · cases h
      · rename_i m2 hm2
        have h2 : m2.look o q = m.look o q := by
          cases hp : a.param with
          | false => simp only [hp] at hm2; cases hm2; rfl
          | true =>
            cases b with
            | nil => simp only [hp] at hm2; cases hm2; rfl
            | «at» o' p' t' => simp only [hp] at hm2; exact (modify_look (hb hp) hm2).trans rfl
        split at h
        · cases h; exact h2
        · rename_i hv
          rw [assign_look (hd (by simpa using hv)) h, h2]

theorem run_look {m m' : Mem} {op : MemOp} {o q} (hm : op.In (Ref.Misses o q))
    (h : m.run op = .ok m') : m'.look o q = m.look o q := by
  cases op with
  | zero d => exact onNum_look hm h
  | mulAdd b c d =>
    simp only [Mem.run, Mem.mulAdd] at h
    split at h
    · cases h
    · rename_i m1 h1
      rw [onNum_look (d := d) hm h, onNum_look (d := d) hm h1]
  | neg d => exact onNum_look (d := d) hm h
  | assign d v => exact assign_look hm h
  | move d b =>
    simp only [Mem.run, Mem.assignFrom] at h
    split at h
    · cases h
    · cases h
    · exact assign_look hm.1 h
  | construct d b =>
    simp only [Mem.run, Mem.construct] at h
    split at h
    · cases h
    · split at h
      · split at h
        · cases h
        · cases h; rfl
      · split at h
        · cases h
        · exact assign_look hm.1 h
    · cases h
  | act a l d b => exact act_look hm.2.1 hm.2.2 h

theorem Diverge.snoc {p q : List Nat} (h : Diverge p q) (k : Nat) : Diverge (p ++ [k]) q := by
  induction h with
  | here h => exact .here h
  | there _ ih => exact .there ih

theorem wrapDst_misses {o q o' p t} (h : o' ≠ o ∨ Diverge p q) : (wrapDst o' p t).Misses o q := by
  unfold wrapDst
  split
  · trivial
  · exact h

theorem misses_region (o : Nat) (q : List Nat) : Region (Ref.Misses o q) where
  nil := trivial
  slot h _ := wrapDst_misses (h.imp id fun h => h.snoc _)

theorem look_lt {m : Mem} {o q v} (h : m.look o q = .ok v) : o < m.objs.length := by
  simp only [Mem.look, Mem.read] at h
  split at h
  · cases h
  · rename_i hv; exact (List.getElem?_eq_some_iff.1 hv).1

theorem alloc_look {m : Mem} {t o q v} (h : m.look o q = .ok v) :
    (m.alloc t).1.Misses o q ∧ (m.alloc t).2.look o q = .ok v := by
  have hlt := look_lt h
  unfold Mem.alloc
  split
  · exact ⟨trivial, h⟩
  · refine ⟨.inl (by omega), ?_⟩
    simp only [Mem.look, Mem.read] at h ⊢
    rwa [List.getElem?_append_left hlt]

theorem misses_keeps (o : Nat) (q : List Nat) (v : Val) :
    Keeps (Ref.Misses o q) (fun m => m.look o q = .ok v) where
  op h1 h2 h3 := (run_look h1 h3).trans h2
  alloc h := alloc_look h

theorem modify_length {m m' : Mem} {o p f} (h : m.modify o p f = .ok m') :
    m'.objs.length = m.objs.length := by
  simp only [Mem.modify] at h
  split at h
  · cases h
  · split at h
    · cases h
    · cases h; simp

theorem assign_length {m m' : Mem} {d v} (h : m.assign d v = .ok m') :
    m'.objs.length = m.objs.length := by
  unfold Mem.assign at h
  split at h
  · cases h; rfl
  · split at h
    · cases h
    · exact modify_length h
  · split at h
    · cases h
    · exact modify_length h

theorem onNum_length {m m' : Mem} {d f} (h : m.onNum d f = .ok m') :
    m'.objs.length = m.objs.length := by
  unfold Mem.onNum at h
  split at h
  · cases h; rfl
  · exact modify_length h
  · cases h

theorem act_length {m m' : Mem} {a l d b} (h : m.act a l d b = .ok m') :
    m'.objs.length = m.objs.length := by
  unfold Mem.act at h
  split at h
  · cases h
  · cases h
  · split at h
    · cases h
    · simp only at h
      split at h
      · cases h
      · rename_i m2 hm2
        have h2 : m2.objs.length = m.objs.length := by
          cases hp : a.param with
          | false => simp only [hp] at hm2; cases hm2; rfl
          | true =>
            cases b with
            | nil => simp only [hp] at hm2; cases hm2; rfl
            | «at» o' p' t' => simp only [hp] at hm2; exact (modify_length hm2).trans rfl
        split at h
        · cases h; exact h2
        · rw [assign_length h, h2]

theorem run_length {m m' : Mem} {op : MemOp} (h : m.run op = .ok m') :
    m'.objs.length = m.objs.length := by
  cases op with
  | zero d => exact onNum_length h
  | mulAdd b c d =>
    simp only [Mem.run, Mem.mulAdd] at h
    split at h
    · cases h
    · rename_i m1 h1
      rw [onNum_length (d := d) h, onNum_length (d := d) h1]
  | neg d => exact onNum_length (d := d) h
  | assign d v => exact assign_length h
  | move d b =>
    simp only [Mem.run, Mem.assignFrom] at h
    split at h
    · cases h
    · cases h
    · exact assign_length h
  | construct d b =>
    simp only [Mem.run, Mem.construct] at h
    split at h
    · cases h
    · split at h
      · split at h
        · cases h
        · cases h; rfl
      · split at h
        · cases h
        · exact assign_length h
    · cases h
  | act a l d b => exact act_length h

/-- What is looked up in an existing object, whatever comes out. -/
theorem misses_keeps_eq (o : Nat) (q : List Nat) (x : Except Err Val) :
    Keeps (Ref.Misses o q) (fun m => o < m.objs.length ∧ m.look o q = x) where
  op h1 h2 h3 := ⟨by rw [run_length h3]; exact h2.1, (run_look h1 h3).trans h2.2⟩
  alloc {t m} h := by
    obtain ⟨hlt, h⟩ := h
    unfold Mem.alloc
    split
    · exact ⟨trivial, hlt, h⟩
    · refine ⟨.inl (by omega), by simp; omega, ?_⟩
      simp only [Mem.look, Mem.read] at h ⊢
      rwa [List.getElem?_append_left hlt]

theorem look_nil {m : Mem} {o v} : m.look o [] = .ok v ↔ m.objs[o]? = some v := by
  simp only [Mem.look, Mem.read]
  cases m.objs[o]? with
  | none => simp
  | some x => simp [Val.get]

/-! ### Quiet patterns -/

theorem adapt_quiet {sk raw : Prog} {a c} (hsk : sk.quiet = true) (h : raw.quiet = true) :
    (adapt sk a c raw).quiet = true := by
  unfold adapt
  cases a <;> cases c <;> cases sk.isFail <;> simp [Prog.quiet, h, hsk]

theorem skipper_quiet {sk : Prog} {r : Req} (h : sk.quiet = true) : (r.skipper sk).quiet = true := by
  unfold Req.skipper
  split
  · rfl
  · exact h

mutual
theorem elab_quiet : ∀ (p : Pat) {sk r}, p.quiet = true → sk.quiet = true →
    (elabP sk r p).quiet = true
  | .seq ps, sk, r, h, hs => adapt_quiet (skipper_quiet hs) (elabs_quiet ps h hs)
  | .alt ps, sk, r, h, hs => adapt_quiet (skipper_quiet hs) (elabs_quiet ps h hs)
  | .rep _ _ p, sk, r, h, hs => adapt_quiet (skipper_quiet hs) (elab_quiet p h hs)
  | .opt p, sk, r, h, hs => adapt_quiet (skipper_quiet hs) (elab_quiet p h hs)
  | .not p, sk, r, h, hs => adapt_quiet (skipper_quiet hs) (elab_quiet p h hs)
  | .discard p, sk, r, h, hs => adapt_quiet (skipper_quiet hs) (elab_quiet p h hs)
  | .lexeme p, sk, r, h, hs => adapt_quiet (skipper_quiet hs) (elab_quiet p h rfl)
  | .bindDst p, sk, r, h, hs => adapt_quiet (skipper_quiet hs) (elab_quiet p h hs)
  | .construct _ p, sk, r, h, hs => adapt_quiet (skipper_quiet hs) (elab_quiet p h hs)
  | .action a p, sk, r, h, hs => by
    simp only [Pat.quiet, Bool.and_eq_true] at h
    refine adapt_quiet (skipper_quiet hs) ?_
    simp only [Prog.quiet, h.1, elab_quiet p h.2 hs, Bool.and_self]
  | .except op neg, sk, r, h, hs => by
    simp only [Pat.quiet, Bool.and_eq_true] at h
    refine adapt_quiet (skipper_quiet hs) ?_
    simp only [Prog.quiet, elab_quiet op h.1 hs, elab_quiet neg h.2 hs, Bool.and_self]
  | .list op sep, sk, r, h, hs => by
    simp only [Pat.quiet, Bool.and_eq_true] at h
    refine adapt_quiet (skipper_quiet hs) ?_
    simp only [Prog.quiet, elab_quiet op h.1 hs, elab_quiet sep h.2 hs, Bool.and_self]
  | .withSkipper p s, sk, r, h, hs => by
    simp only [Pat.quiet, Bool.and_eq_true] at h
    exact adapt_quiet (skipper_quiet hs) (elab_quiet p h.1 (elab_quiet s h.2 rfl))
  | .recur _ _, sk, r, h, hs => adapt_quiet (skipper_quiet hs) hs
  | .char _, sk, r, h, hs => adapt_quiet (skipper_quiet hs) rfl
  | .charSymbol _, sk, r, h, hs => adapt_quiet (skipper_quiet hs) rfl
  | .strLit _, sk, r, h, hs => adapt_quiet (skipper_quiet hs) rfl
  | .symbol _, sk, r, h, hs => adapt_quiet (skipper_quiet hs) rfl
  | .int .., sk, r, h, hs => adapt_quiet (skipper_quiet hs) rfl
  | .uint .., sk, r, h, hs => adapt_quiet (skipper_quiet hs) rfl
  | .eoi, sk, r, h, hs => adapt_quiet (skipper_quiet hs) rfl
  | .pass, sk, r, h, hs => adapt_quiet (skipper_quiet hs) rfl
  | .fail, sk, r, h, hs => adapt_quiet (skipper_quiet hs) rfl
theorem elabs_quiet : ∀ (ps : List Pat) {sk r}, Pat.quiets ps = true → sk.quiet = true →
    Prog.quiets (elabPs sk r ps) = true
  | [], _, _, _, _ => rfl
  | p :: ps, sk, r, h, hs => by
    simp only [Pat.quiets, Bool.and_eq_true] at h
    simp only [elabPs, Prog.quiets, elab_quiet p h.1 hs, elabs_quiet ps h.2 hs, Bool.and_self]
end

theorem Env.quiet.prog {env : Env} (h : env.quiet) : env.quietP :=
  fun _ _ _ h1 h2 => elab_quiet _ (h _ _ h1) h2

end Abu
