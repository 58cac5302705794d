import Verif.Proofs.Bound
/-
C45: what parsers can write, and what `bind_dst` binds.
-/
namespace Abu

/-! ### C45 -/

/-- C45: every parser, with any actions, on any data source: while it is suspended and when it has
ended, with success or failure, everything that was there before is as it was, except what its
destination and the bound destination of its context designate. -/
theorem C45_writes_are_confined {σ : Type} [DataSource σ] (env : Env) (P : Prog) (dst bnd : Ref)
    (w w' : World σ Mem) (h : Suspended env P dst bnd w w' ∨ ∃ r, Used env P dst bnd w r w')
    (o : Nat) (q : List Nat) (v : Val) (hd : dst.Misses o q) (hb : bnd.Misses o q)
    (hv : w.mem.look o q = .ok v) : w'.mem.look o q = .ok v := by
  rcases h with h | ⟨r, h⟩
  · exact h.confined hd hb hv
  · exact h.confined hd hb hv

/-- C45: likewise around `bind_dst(p)`, except only what its destination designates: the bound
destination of the context is out of reach. -/
theorem C45_bind_dst_confines {σ : Type} [DataSource σ] (env : Env) (P : Prog) (dst bnd : Ref)
    (w w' : World σ Mem)
    (h : Suspended env (.bindDst P) dst bnd w w' ∨ ∃ r, Used env (.bindDst P) dst bnd w r w')
    (o : Nat) (q : List Nat) (v : Val) (hd : dst.Misses o q) (hv : w.mem.look o q = .ok v) :
    w'.mem.look o q = .ok v := by
  rcases h with h | ⟨r, h⟩
  · exact (suspended_bindDst.1 h).confined hd hd hv
  · exact (used_bindDst.1 h).confined hd hd hv

/-- C45: apart from that `bind_dst(p)` is `p`. -/
theorem C45_bind_dst_is_p {σ : Type} [DataSource σ] (env : Env) (P : Prog) (dst bnd : Ref)
    (w w' : World σ Mem) (r : Res) :
    (Used env (.bindDst P) dst bnd w r w' ↔ Used env P dst dst w r w') ∧
      (Suspended env (.bindDst P) dst bnd w w' ↔ Suspended env P dst dst w w') :=
  ⟨used_bindDst, suspended_bindDst⟩

/-- C45, for `parse`: with any pattern and any actions, everything outside the destination it was
given is as it was. -/
theorem C45_parse (env : Env) (p : Pat) (dst : Ref) (m m' : Mem) (t rest : List Ch) (r : Res)
    (h : Parses env p dst m t (.ok (r, m', rest))) (o : Nat) (q : List Nat) (v : Val)
    (hd : dst.Misses o q) (hv : m.look o q = .ok v) : m'.look o q = .ok v :=
  h.uses (misses_region o q) (misses_keeps o q v) (.inl hd) (.inl hd) hv

/-- C45, for a parser object, at any time. -/
theorem C45_parser_object (env : Env) (p : Pat) (dst : Ref) (m m' : Mem) (ops : List SOp)
    (rest : List Ch) (r : Res) (h : MakeParserRun env p dst m ops (.ok (r, m', rest))) (o : Nat)
    (q : List Nat) (v : Val) (hd : dst.Misses o q) (hv : m.look o q = .ok v) :
    m'.look o q = .ok v :=
  h.uses (misses_region o q) (misses_keeps o q v) (.inl hd) (.inl hd) hv

/-- C45: what an action with an `ActionParam` does to the bound destination: after its operand
succeeded it reads the value that is there then, and writes what the function makes of it, the
value of the operand and the calls before. (If it also returns something, the destination must be
elsewhere.) -/
theorem C45_action_param {σ : Type} [DataSource σ] (env : Env) (a : Act) (P : Prog) (dst : Ref)
    (o : Nat) (q : List Nat) (ty : Ty) (w w' : World σ Mem) (ha : a.param = true)
    (hd : a.void = false → dst.Misses o q)
    (h : Used env (.action a P) dst (.at o q ty) w .SUCCESS w') :
    ∃ w1 v b, Used env P (w.mem.alloc a.landing).1 (.at o q ty)
        ⟨w.ds, (w.mem.alloc a.landing).2⟩ .SUCCESS w1 ∧
      w1.mem.read (w.mem.alloc a.landing).1 = .ok v ∧ w1.mem.look o q = .ok b ∧
      w'.mem.look o q = .ok (a.fn w1.mem.log v b).2 ∧
      w'.mem.log = w1.mem.log ++ [⟨a.id, v⟩] := by
  obtain ⟨w1, h1, _, h3, _⟩ := used_action.1 h
  obtain ⟨v, b, h4⟩ := act_param (h3 rfl) ha hd
  exact ⟨w1, v, b, h1, h4⟩

/-- The bound destination is a number: the value is added to it. -/
def exAddTo : Act := ⟨3, .int, true, true, fun _ v b =>
  (.nil, match v, b with | .num i, .num j => .num (j + i) | _, b => b)⟩
/-- `bind_dst(int_ >> *discard(',' >> int_[add]))` -/
def exTotal : Pat := .bindDst (.seq [int_, .rep 0 0 (.discard (.seq [litC 44, .action exAddTo int_]))])

/-- In slot 1 of a tuple, on "1,2,3": the sum is in slot 1, the bound destination of the context,
object 1, is as it was. -/
example : Used (fun _ => none) (topParser exTotal) (.at 0 [1] .int) (.at 1 [] .int)
    (⟨⟨[49, 44, 50, 44, 51], 0, [], true⟩, ⟨[.tup [.num 8, .num 9], .num 7], []⟩⟩ : World Cursor Mem)
    .SUCCESS ⟨⟨[49, 44, 50, 44, 51], 5, [], true⟩,
      ⟨[.tup [.num 8, .num 6], .num 7, .num 2, .num 3],
        [⟨3, .num 2⟩, ⟨3, .num 3⟩]⟩⟩ :=
  ⟨_, _, ⟨[49, 44, 50, 44, 51], 0, [], true⟩, rfl, .last ⟨by simp, 20, rfl⟩ (by simp)⟩
example : (Ref.at 0 [1] .int).Misses 0 [0] := .inr (.here (by decide))
example : Used (fun _ => none) (.action exAddTo (topParser int_)) .nil (.at 0 [1] .int)
    (⟨⟨[50], 0, [], true⟩, ⟨[.tup [.num 8, .num 9]], []⟩⟩ : World Cursor Mem)
    .SUCCESS ⟨⟨[50], 1, [], true⟩, ⟨[.tup [.num 8, .num 11], .num 2], [⟨3, .num 2⟩]⟩⟩ :=
  ⟨_, _, ⟨[50], 0, [], true⟩, rfl, .last ⟨by simp, 20, rfl⟩ (by simp)⟩

end Abu
