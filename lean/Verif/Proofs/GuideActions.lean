import Verif.Proofs.Guide
/-
The actions of the user guide.
-/
namespace Abu

theorem elab_guideMatched (id : Nat) : topParser (guideMatched id) =
    .rep 0 0 (.action ⟨id, .nil, true, false, fun _ _ _ => (.nil, .nil)⟩ (.char .any)) := by rfl

theorem elab_guideFound (id : Nat) : topParser (guideFound id) =
    .rep 0 0 (.action ⟨id, .char, true, false, fun _ _ _ => (.nil, .nil)⟩ (.char .any)) := by rfl

theorem elab_guideMapped (id : Nat) (ty : Ty) (f : Int → Int) : topParser (guideMapped id ty f) =
    .rep 0 0 (.action ⟨id, ty, false, false, fun _ v _ =>
      (match v with | .num c => .num (f c) | v => v, .nil)⟩ (.char .any)) := by rfl

section
variable {env : Env} {bnd : Ref} {t : List Ch} {j i : Nat} {m : Mem} {o : Nat} {p : List Nat}

theorem Ends.any_end {dst} (h : t.drop i = []) : Ends env (.char .any) dst bnd t j i m .FAILURE i m :=
  .char_fail fun c hc => by rw [(drop_nil h).2] at hc; cases hc

theorem matched_star {id : Nat} : ∀ {s : List Ch} {j i : Nat} {m : Mem}, t.drop i = s →
    StarEnds env (.action ⟨id, .nil, true, false, fun _ _ _ => (.nil, .nil)⟩ (.char .any)) .nil bnd t j i m
      (i + s.length) ⟨m.objs, m.log ++ s.map fun _ => ⟨id, .nil⟩⟩
  | [], j, i, m, h => by
    simp only [List.length_nil, Nat.add_zero, List.map_nil, List.append_nil]
    exact .stop (.action_fail (.any_end h))
  | c :: s, j, i, m, h => by
    obtain ⟨h1, h2, _⟩ := drop_cons h
    have e : i + (c :: s : List Ch).length = i + 1 + s.length := by simp only [List.length_cons]; omega
    have := matched_star (id := id) (j := i + 1) (m := ⟨m.objs, m.log ++ [⟨id, .nil⟩]⟩) h2
    rw [e]
    refine .more (m1 := ⟨m.objs, m.log ++ [⟨id, .nil⟩]⟩) (.action (m1 := m) (.char h1 rfl rfl) rfl) ?_
    simpa using this

theorem wrap_char {c : Ch} (h : IsChar c) : NumKind.wrap (.signed 8) c = c := by
  unfold IsChar at h
  simp only [NumKind.wrap]
  omega

/-- Reading one character into a new number. -/
theorem any_num {k : NumKind} {c : Ch} (h : t[i]? = some c) :
    ∃ m1, Ends env (.char .any) (.at m.objs.length [] (.num k)) bnd t j i ⟨m.objs ++ [.indet], m.log⟩ .SUCCESS
        (i + 1) m1 ∧ m1.objs = m.objs ++ [.num (k.wrap c)] ∧ m1.log = m.log := by
  refine ⟨⟨m.objs ++ [.num (k.wrap c)], m.log⟩, .char h rfl ?_, rfl, rfl⟩
  simp [Mem.assign, Ty.convert, Mem.modify, Val.update]

theorem found_star {id : Nat} (ht : ∀ c ∈ t, IsChar c) : ∀ {s : List Ch} {j i : Nat} {m : Mem}, t.drop i = s →
    ∃ m', StarEnds env (.action ⟨id, .char, true, false, fun _ _ _ => (.nil, .nil)⟩ (.char .any)) .nil bnd t j i m
      (i + s.length) m' ∧ Grows m m' ∧ m'.log = m.log ++ s.map fun c => ⟨id, .num c⟩
  | [], j, i, m, h => by
    refine ⟨⟨m.objs ++ [.indet], m.log⟩, .stop (.action_fail ?_), grows_append, by simp⟩
    exact .any_end h
  | c :: s, j, i, m, h => by
    obtain ⟨h1, h2, _⟩ := drop_cons h
    have hc : IsChar c := ht c (List.mem_of_getElem? h1)
    have e : i + (c :: s : List Ch).length = i + 1 + s.length := by simp only [List.length_cons]; omega
    obtain ⟨m1, f1, f2, f3⟩ := any_num (env := env) (bnd := bnd) (j := j) (m := m) (k := .signed 8) h1
    rw [wrap_char hc] at f2
    obtain ⟨m', g1, g2, g3⟩ := found_star (id := id) ht (j := i + 1) (m := ⟨m1.objs, m1.log ++ [⟨id, .num c⟩]⟩) h2
    refine ⟨m', .more (.action (m1 := m1) f1 ?_) (by rw [e]; exact g1), ?_, by simp [g3, f3]⟩
    · simp [Mem.act, Mem.read, Mem.alloc, Ty.char, f2, Val.get]
    · refine Grows.trans ?_ g2
      intro o ho
      simp [f2, List.getElem?_append_left ho]

theorem mapped_star {id : Nat} {k k' : NumKind} {f : Int → Int} : ∀ {s : List Ch} {j i : Nat} {m : Mem} {vs},
    t.drop i = s → m.read (.at o p .nil) = .ok (.coll vs) →
    ∃ m', StarEnds env (.action ⟨id, .num k, false, false, fun _ v _ =>
      (match v with | .num c => .num (f c) | v => v, .nil)⟩ (.char .any)) (.at o p (.coll (.num k'))) bnd t j i m
      (i + s.length) m' ∧ Sets m o p (.coll (vs ++ s.map fun c => .num (k'.wrap (f (k.wrap c))))) m' ∧
      m'.log = m.log ++ s.map fun c => ⟨id, .num (k.wrap c)⟩
  | [], j, i, m, vs, h, hr => by
    refine ⟨⟨m.objs ++ [.indet], m.log⟩, .stop (.action_fail ?_), ?_, by simp⟩
    · exact .any_end h
    · simpa using (grows_append (m := m)).same hr
  | c :: s, j, i, m, vs, h, hr => by
    obtain ⟨h1, h2, _⟩ := drop_cons h
    have e : i + (c :: s : List Ch).length = i + 1 + s.length := by simp only [List.length_cons]; omega
    obtain ⟨m1, f1, f2, f3⟩ := any_num (env := env) (bnd := bnd) (j := j) (m := m) (k := k) h1
    have hg : Grows m ⟨m1.objs, m1.log ++ [⟨id, .num (k.wrap c)⟩]⟩ := by
      intro o ho
      simp [f2, List.getElem?_append_left ho]
    obtain ⟨m2, f4, f5⟩ := push_sets (ty := .num k') (v := .num (f (k.wrap c)))
      (e := .num (k'.wrap (f (k.wrap c)))) rfl (hg.read hr)
    have hlog : m2.log = m1.log ++ [⟨id, .num (k.wrap c)⟩] := by
      simp only [Mem.assign, Ty.convert, Mem.modify] at f4
      split at f4
      · cases f4
      · split at f4
        · cases f4
        · cases f4; rfl
    obtain ⟨m', g1, g2, g3⟩ := mapped_star (id := id) (k := k) (k' := k') (f := f) (j := i + 1) h2 (f5.read _)
    refine ⟨m', .more (.action (m1 := m1) (m2 := m2) f1 ?_) (by rw [e]; exact g1), ?_, by simp [g3, hlog, f3]⟩
    · simp only [Mem.act, Mem.read, Mem.alloc, f2]
      rw [f2] at f4
      simpa [Val.get] using f4
    · simpa using (hg.sets (read_lt hr) f5).trans g2

end
end Abu
