import Verif.Proofs.GrammarLemmas
import Verif.Proofs.Apply
import Verif.Proofs.Eval
import Verif.Proofs.Plain
/-
C15, C16, C18-C24: what the combinators recognise.

All of these are false of the code for arbitrary patterns: an `Optional` that succeeds leaves its
rollback point behind (parsers/coroutine/unary/optional.h:53-62), and a later parser takes it for
its own. Each is refuted here with a concrete parse and proved for the patterns accepted by the
decidable criterion `Pat.tidy` (Spec/Tidy.lean).
-/
namespace Abu

/-- No `Recur` is used. -/
abbrev noEnv : Env := fun _ => none

/-- `lit(c)` for the characters of the examples -/
abbrev la : Pat := litC 97
abbrev lb : Pat := litC 98
abbrev lc : Pat := litC 99
abbrev lx : Pat := litC 120
abbrev ly : Pat := litC 121
abbrev lz : Pat := litC 122

theorem noEnv_tidy {sk els elf} : noEnv.tidy sk els elf := by intro id q h; cases h

/-- A parse recognises at most one thing. -/
theorem Recognises.not_yields {env p t o o'} (h : Recognises env p t o) (ho : o ≠ o') :
    ¬ Yields env p t o' := by
  intro hy
  obtain ⟨dst, m, r, m', rest, h1, h2⟩ := h
  rcases hy dst m with ⟨r', m'', rest', h3, h4⟩ | ⟨e, _, h3⟩
  · cases h1.unique h3
    cases h2 <;> cases h4 <;> exact ho rfl
  · cases h1.unique h3

/-! ### C15 -/

/-- C15 (partial: tidy patterns): what a parse recognises is what the grammar says. `els` and
`elf` say whether the patterns used through `Recur` may leave stale rollback points. -/
theorem C15_parse_implements_peg_partial (env : Env) (p : Pat) (els elf : Stale)
    (henv : env.tidy false els elf) (hp : p.tidy false els elf false .any .any = true)
    (t : List Ch) (o : Option (List Ch)) (h : Recognises env p t o) : PegRest env p t o :=
  recognises_peg henv hp h

/-- C15 (partial: tidy patterns): what the grammar says is what every parse recognises. -/
theorem C15_peg_is_parsed_partial (env : Env) (p : Pat) (els elf : Stale)
    (henv : env.tidy false els elf) (hp : p.tidy false els elf false .any .any = true)
    (t : List Ch) (o : Option (List Ch)) (h : PegRest env p t o) : Yields env p t o :=
  peg_yields henv hp h

/-- C15 (partial: plain patterns): a grammar without optional parts, symbol tables keyed by
characters, skippers and one-digit `Int`s, recursive or not, is parsed exactly as it says: no
other outcome is ever seen, and the outcome it prescribes is seen with every destination. -/
theorem C15_plain_grammars_partial (env : Env) (p : Pat) (henv : env.plain) (hp : p.plain = true)
    (t : List Ch) (o : Option (List Ch)) :
    (Recognises env p t o → PegRest env p t o) ∧ (PegRest env p t o → Yields env p t o) :=
  ⟨recognises_peg henv.tidy (p.plain_tidy hp _ _ _), peg_yields henv.tidy (p.plain_tidy hp _ _ _)⟩

/-- `(x >> -a >> b) | (x >> a >> c)` -/
def exStale : Pat := .alt [.seq [lx, .opt la, lb], .seq [lx, la, lc]]

/-- C15 is false in general: `(x >> -a >> b) | (x >> a >> c)` does not match "xac". -/
theorem C15_refuted : PegRest noEnv exStale [120, 97, 99] (some []) ∧
    Recognises noEnv exStale [120, 97, 99] none := by
  constructor
  · refine ⟨3, ?_, rfl⟩
    have hx : Peg noEnv [120, 97, 99] lx 0 (some 1) := .discard (.char rfl rfl)
    have ha : Peg noEnv [120, 97, 99] la 1 (some 2) := .discard (.char rfl rfl)
    have hc : Peg noEnv [120, 97, 99] lc 2 (some 3) := .discard (.char rfl rfl)
    have hb : Peg noEnv [120, 97, 99] lb 2 none :=
      .discard (.charNo fun c hc => by cases hc; rfl)
    exact .altNo (.seq hx (.seq (.opt ha) (.seqNo hb))) (.alt (.seq hx (.seq ha (.seq hc .seqNil))))
  · exact ⟨.nil, ⟨[], []⟩, .FAILURE, _, _, parses_of_parseN (n := 12) rfl, .no⟩

/-- The hypotheses hold of a recursive grammar: `r = '(' >> r >> ')' | x`. -/
def exRec : Pat := .alt [.seq [litC 40, .recur 0 true, litC 41], lx]
def exRecEnv : Env := fun id => if id = 0 then some exRec else none

example : exRecEnv.tidy false .none .none := by
  intro id q h
  unfold exRecEnv at h
  split at h
  · cases h; decide
  · cases h
example : (Pat.recur 0 true).tidy false .none .none false .any .any = true := by decide
example : Recognises exRecEnv (.recur 0 true) [40, 40, 120, 41, 41, 122] (some [122]) :=
  ⟨.nil, ⟨[], []⟩, .SUCCESS, _, _, parses_of_parseN (n := 30) rfl, .ok⟩
example : exStale.tidy false .none .none false .any .any = false := by decide

/-- `(-a >> b) | (a >> c)`: here the optional part begins where the alternative begins, and its
stale rollback point does no harm. -/
def exStart : Pat := .alt [.seq [.opt la, lb], .seq [la, lc]]
example : exStart.tidy false .none .none false .any .any = true := by decide
example : Recognises noEnv exStart [97, 99] (some []) :=
  ⟨.nil, ⟨[], []⟩, .SUCCESS, _, _, parses_of_parseN (n := 30) rfl, .ok⟩
/-- `*(-a >> b) >> c` -/
example : (Pat.seq [.rep 0 0 (.seq [.opt la, lb]), lc]).tidy false .none .none false .any .any =
    true := by decide
example : exRecEnv.plain ∧ (Pat.recur 0 true).plain = true := by
  refine ⟨?_, rfl⟩
  intro id q h
  unfold exRecEnv at h
  split at h
  · cases h; decide
  · cases h

/-! ### C16 -/

section
variable (env : Env) (els elf : Stale) (henv : env.tidy false els elf)
include henv

/-- C16 (partial: tidy patterns): an alternative that matches the text after all earlier ones
failed on the same text decides. -/
theorem C16_first_match_decides_partial (pre post : List Pat) (q : Pat) (t rest : List Ch)
    (hp : (Pat.alt (pre ++ q :: post)).tidy false els elf false .any .any = true)
    (hpre : ∀ a ∈ pre, Recognises env a t none) (hq : Recognises env q t (some rest)) :
    Yields env (.alt (pre ++ q :: post)) t (some rest) := by
  have hl := loose_alt (band_right hp)
  exact peg_yields henv hp (.alt_first
    (fun a ha => recognises_peg henv (hl a (by simp [ha])) (hpre a ha))
    (recognises_peg henv (hl q (by simp)) hq))

/-- C16 (partial: tidy patterns): alternatives that all fail on the text fail together. -/
theorem C16_all_fail_partial (ps : List Pat) (t : List Ch)
    (hp : (Pat.alt ps).tidy false els elf false .any .any = true)
    (h : ∀ a ∈ ps, Recognises env a t none) : Yields env (.alt ps) t none := by
  have hl := loose_alt (band_right hp)
  exact peg_yields henv hp (.alt_none fun a ha => recognises_peg henv (hl a ha) (h a ha))

/-- C16 (partial: tidy patterns): when alternatives match, one of them matches the same way from
the same text, and all the earlier ones fail on it. -/
theorem C16_match_inv_partial (ps : List Pat) (t rest : List Ch)
    (hp : (Pat.alt ps).tidy false els elf false .any .any = true)
    (h : Recognises env (.alt ps) t (some rest)) :
    ∃ pre q post, ps = pre ++ q :: post ∧ (∀ a ∈ pre, Yields env a t none) ∧
      Yields env q t (some rest) := by
  have hl := loose_alt (band_right hp)
  obtain ⟨pre, q, post, rfl, h1, h2⟩ := (recognises_peg henv hp h).alt_some_inv
  exact ⟨pre, q, post, rfl, fun a ha => peg_yields henv (hl a (by simp [ha])) (h1 a ha),
    peg_yields henv (hl q (by simp)) h2⟩

/-- C16 (partial: tidy patterns): when alternatives fail, each of them fails from the same
text. -/
theorem C16_failure_inv_partial (ps : List Pat) (t : List Ch)
    (hp : (Pat.alt ps).tidy false els elf false .any .any = true)
    (h : Recognises env (.alt ps) t none) : ∀ a ∈ ps, Yields env a t none := by
  have hl := loose_alt (band_right hp)
  exact fun a ha => peg_yields henv (hl a ha) ((recognises_peg henv hp h).alt_none_inv a ha)

end

/-- C16 is false in general: the first alternative of `exStale` fails on "xac", the second one
matches it, but together they fail. -/
theorem C16_refuted : Recognises noEnv (.seq [lx, .opt la, lb]) [120, 97, 99] none ∧
    Recognises noEnv (.seq [lx, la, lc]) [120, 97, 99] (some []) ∧
    Recognises noEnv (.alt [.seq [lx, .opt la, lb], .seq [lx, la, lc]]) [120, 97, 99] none :=
  ⟨⟨.nil, ⟨[], []⟩, .FAILURE, _, _, parses_of_parseN (n := 12) rfl, .no⟩,
   ⟨.nil, ⟨[], []⟩, .SUCCESS, _, _, parses_of_parseN (n := 12) rfl, .ok⟩,
   ⟨.nil, ⟨[], []⟩, .FAILURE, _, _, parses_of_parseN (n := 12) rfl, .no⟩⟩

/-- Two alternatives with a common prefix: `(x >> a >> b) | (x >> a)`. -/
def exAlt : List Pat := [.seq [lx, la, lb], .seq [lx, la]]
example : (Pat.alt exAlt).tidy false .none .none false .any .any = true := by decide
example : Recognises noEnv (.seq [lx, la, lb]) [120, 97, 99] none ∧
    Recognises noEnv (.seq [lx, la]) [120, 97, 99] (some [99]) ∧
    Recognises noEnv (.alt exAlt) [120, 97, 99] (some [99]) :=
  ⟨⟨.nil, ⟨[], []⟩, .FAILURE, _, _, parses_of_parseN (n := 12) rfl, .no⟩,
   ⟨.nil, ⟨[], []⟩, .SUCCESS, _, _, parses_of_parseN (n := 12) rfl, .ok⟩,
   ⟨.nil, ⟨[], []⟩, .SUCCESS, _, _, parses_of_parseN (n := 12) rfl, .ok⟩⟩
example : Recognises noEnv (.alt exAlt) [121] none :=
  ⟨.nil, ⟨[], []⟩, .FAILURE, _, _, parses_of_parseN (n := 12) rfl, .no⟩

/-! ### C18 -/

section
variable (env : Env) (els elf : Stale) (henv : env.tidy false els elf)
include henv

/-- C18 (partial: tidy patterns): after `n` matches of `p`, `n` within the bounds, a repetition
that can not go on (`p` fails or the upper bound is reached) succeeds there. -/
theorem C18_repeat_success_partial (mn mx : Nat) (p : Pat) (t t' : List Ch) (n : Nat)
    (hp : (Pat.rep mn mx p).tidy false els elf false .any .any = true)
    (h : Times (fun u v => Recognises env p u (some v)) n t t') (hmn : mn ≤ n)
    (hmx : mx ≠ 0 → n ≤ mx) (hstop : (mx ≠ 0 ∧ n = mx) ∨ Recognises env p t' none) :
    Yields env (.rep mn mx p) t (some t') := by
  have hl : p.Loose els elf := loose (show p.tidy false els elf _ _ _ = true from hp)
  exact peg_yields henv hp (.rep (h.imp fun _ _ => recognises_peg henv hl) hmn hmx
    (hstop.imp id (recognises_peg henv hl)))

/-- C18 (partial: tidy patterns): fewer matches than the lower bound make the repetition fail. -/
theorem C18_repeat_failure_partial (mn mx : Nat) (p : Pat) (t t' : List Ch) (n : Nat)
    (hp : (Pat.rep mn mx p).tidy false els elf false .any .any = true)
    (hb : mx = 0 ∨ mn ≤ mx)
    (h : Times (fun u v => Recognises env p u (some v)) n t t') (hmn : n < mn)
    (hstop : Recognises env p t' none) :
    Yields env (.rep mn mx p) t none := by
  have hl : p.Loose els elf := loose (show p.tidy false els elf _ _ _ = true from hp)
  exact peg_yields henv hp (.rep_few (h.imp fun _ _ => recognises_peg henv hl) hmn hb
    (recognises_peg henv hl hstop))

/-- C18 (partial: tidy patterns): when a repetition succeeds, `p` matched a number of times within
the bounds, the repetition stops after the last match, and it could not have gone on. -/
theorem C18_repeat_success_inv_partial (mn mx : Nat) (p : Pat) (t t' : List Ch)
    (hp : (Pat.rep mn mx p).tidy false els elf false .any .any = true)
    (hb : mx = 0 ∨ mn ≤ mx)
    (h : Recognises env (.rep mn mx p) t (some t')) :
    ∃ n, Times (fun u v => Yields env p u (some v)) n t t' ∧ mn ≤ n ∧ (mx ≠ 0 → n ≤ mx) ∧
      ((mx ≠ 0 ∧ n = mx) ∨ Yields env p t' none) := by
  have hl : p.Loose els elf := loose (show p.tidy false els elf _ _ _ = true from hp)
  obtain ⟨n, h1, h2, h3, h4⟩ := (recognises_peg henv hp h).rep_inv hb
  exact ⟨n, h1.imp fun _ _ => peg_yields henv hl, h2, h3, h4.imp id (peg_yields henv hl)⟩

/-- C18 (partial: tidy patterns): when a repetition fails, `p` matched fewer times than the lower
bound, then failed. -/
theorem C18_repeat_failure_inv_partial (mn mx : Nat) (p : Pat) (t : List Ch)
    (hp : (Pat.rep mn mx p).tidy false els elf false .any .any = true)
    (hb : mx = 0 ∨ mn ≤ mx)
    (h : Recognises env (.rep mn mx p) t none) :
    ∃ n t', Times (fun u v => Yields env p u (some v)) n t t' ∧ n < mn ∧ Yields env p t' none := by
  have hl : p.Loose els elf := loose (show p.tidy false els elf _ _ _ = true from hp)
  obtain ⟨n, t', h1, h2, h3⟩ := (recognises_peg henv hp h).rep_none_inv hb
  exact ⟨n, t', h1.imp fun _ _ => peg_yields henv hl, h2, peg_yields henv hl h3⟩

end

/-- C18 is false in general: `x >> -y >> z` fails on "xyxyz", so `*(x >> -y >> z)` should stop at
once, leaving everything; it leaves "yxyz". -/
theorem C18_refuted_position :
    Recognises noEnv (.seq [lx, .opt ly, lz]) [120, 121, 120, 121, 122] none ∧
    Recognises noEnv (.rep 0 0 (.seq [lx, .opt ly, lz])) [120, 121, 120, 121, 122]
      (some [121, 120, 121, 122]) :=
  ⟨⟨.nil, ⟨[], []⟩, .FAILURE, _, _, parses_of_parseN (n := 12) rfl, .no⟩,
   ⟨.nil, ⟨[], []⟩, .SUCCESS, _, _, parses_of_parseN (n := 12) rfl, .ok⟩⟩

/-- C18 is false in general: nothing checks `MIN ≤ MAX`, and `repeat<3, 2>(x)` succeeds with two
matches. -/
theorem C18_refuted_bounds : Recognises noEnv (.rep 3 2 lx) [120, 120] (some []) :=
  ⟨.nil, ⟨[], []⟩, .SUCCESS, _, _, parses_of_parseN (n := 12) rfl, .ok⟩

/-- `repeat<1, 3>(x >> y)` -/
def exRep : Pat := .rep 1 3 (.seq [lx, ly])
example : exRep.tidy false .none .none false .any .any = true := by decide
example : Recognises noEnv exRep [120, 121, 120, 121, 120] (some [120]) ∧
    Recognises noEnv (.seq [lx, ly]) [120] none :=
  ⟨⟨.nil, ⟨[], []⟩, .SUCCESS, _, _, parses_of_parseN (n := 20) rfl, .ok⟩,
   ⟨.nil, ⟨[], []⟩, .FAILURE, _, _, parses_of_parseN (n := 20) rfl, .no⟩⟩
example : Recognises noEnv exRep [120, 120] none :=
  ⟨.nil, ⟨[], []⟩, .FAILURE, _, _, parses_of_parseN (n := 20) rfl, .no⟩

/-! ### C19 -/

section
variable (env : Env) (els elf : Stale) (henv : env.tidy false els elf)
include henv

/-- C19 (partial: tidy patterns): a list without a first item succeeds without consuming. -/
theorem C19_list_empty_partial (op sep : Pat) (t : List Ch)
    (hp : (Pat.list op sep).tidy false els elf false .any .any = true)
    (h : Recognises env op t none) : Yields env (.list op sep) t (some t) :=
  peg_yields henv hp (.list_nil (recognises_peg henv (loose (band_left hp)) h))

/-- C19 (partial: tidy patterns): a list stops after its last item, before a separator that is not
followed by an item. -/
theorem C19_list_success_partial (op sep : Pat) (t t1 t' : List Ch) (n : Nat)
    (hp : (Pat.list op sep).tidy false els elf false .any .any = true)
    (h0 : Recognises env op t (some t1))
    (h : Times (fun u v => ∃ w, Recognises env sep u (some w) ∧ Recognises env op w (some v))
      n t1 t')
    (hstop : Recognises env sep t' none ∨
      ∃ w, Recognises env sep t' (some w) ∧ Recognises env op w none) :
    Yields env (.list op sep) t (some t') := by
  have ho : op.Loose els elf := loose (band_left hp)
  have hs : sep.Loose els elf := loose (band_right hp)
  refine peg_yields henv hp (.list_some (recognises_peg henv ho h0) (h.imp ?_) ?_)
  · rintro u v ⟨w, h1, h2⟩
    exact ⟨w, recognises_peg henv hs h1, recognises_peg henv ho h2⟩
  · rcases hstop with h | ⟨w, h1, h2⟩
    · exact .inl (recognises_peg henv hs h)
    · exact .inr ⟨w, recognises_peg henv hs h1, recognises_peg henv ho h2⟩

/-- C19 (partial: tidy patterns): a list always succeeds; it consumed nothing because there is no
item, or it consumed `op (sep op)*` and another `sep op` does not follow. -/
theorem C19_list_inv_partial (op sep : Pat) (t : List Ch) (o : Option (List Ch))
    (hp : (Pat.list op sep).tidy false els elf false .any .any = true)
    (h : Recognises env (.list op sep) t o) :
    (o = some t ∧ Yields env op t none) ∨
    ∃ t1 n t', o = some t' ∧ Yields env op t (some t1) ∧
      Times (fun u v => ∃ w, Yields env sep u (some w) ∧ Yields env op w (some v)) n t1 t' ∧
      (Yields env sep t' none ∨ ∃ w, Yields env sep t' (some w) ∧ Yields env op w none) := by
  have ho : op.Loose els elf := loose (band_left hp)
  have hs : sep.Loose els elf := loose (band_right hp)
  rcases (recognises_peg henv hp h).list_inv with ⟨h1, h2⟩ | ⟨t1, n, u, rfl, h1, h2, h3⟩
  · exact .inl ⟨h1, peg_yields henv ho h2⟩
  · refine .inr ⟨t1, n, u, rfl, peg_yields henv ho h1, h2.imp ?_, ?_⟩
    · rintro u v ⟨w, h1, h2⟩
      exact ⟨w, peg_yields henv hs h1, peg_yields henv ho h2⟩
    · rcases h3 with h | ⟨w, h1, h2⟩
      · exact .inl (peg_yields henv hs h)
      · exact .inr ⟨w, peg_yields henv hs h1, peg_yields henv ho h2⟩

end

/-- C19 is false in general: `x >> -y >> z` fails on "xy", but `(x >> -y >> z) % ','` consumes the
"x". -/
theorem C19_refuted : Recognises noEnv (.seq [lx, .opt ly, lz]) [120, 121] none ∧
    Recognises noEnv (.list (.seq [lx, .opt ly, lz]) (litC 44)) [120, 121] (some [121]) :=
  ⟨⟨.nil, ⟨[], []⟩, .FAILURE, _, _, parses_of_parseN (n := 12) rfl, .no⟩,
   ⟨.nil, ⟨[], []⟩, .SUCCESS, _, _, parses_of_parseN (n := 12) rfl, .ok⟩⟩

/-- `(x >> y) % (',' >> ' ')` on "xy, xy, z" -/
def exList : Pat := .list (.seq [lx, ly]) (.seq [litC 44, litC 32])
example : exList.tidy false .none .none false .any .any = true := by decide
example : Recognises noEnv exList [120, 121, 44, 32, 120, 121, 44, 32, 122]
    (some [44, 32, 122]) :=
  ⟨.nil, ⟨[], []⟩, .SUCCESS, _, _, parses_of_parseN (n := 20) rfl, .ok⟩
example : Recognises noEnv (.seq [litC 44, litC 32]) [44, 32, 122] (some [122]) ∧
    Recognises noEnv (.seq [lx, ly]) [122] none :=
  ⟨⟨.nil, ⟨[], []⟩, .SUCCESS, _, _, parses_of_parseN (n := 12) rfl, .ok⟩,
   ⟨.nil, ⟨[], []⟩, .FAILURE, _, _, parses_of_parseN (n := 12) rfl, .no⟩⟩

/-! ### C20 -/

section
variable (env : Env) (els elf : Stale) (henv : env.tidy false els elf)
include henv

/-- C20 (partial: tidy patterns): `!p` succeeds without consuming where `p` fails. -/
theorem C20_not_success_partial (p : Pat) (t : List Ch)
    (hp : (Pat.not p).tidy false els elf false .any .any = true)
    (h : Recognises env p t none) : Yields env (.not p) t (some t) :=
  peg_yields henv hp (.not_some
    (recognises_peg henv (loose (show p.tidy false els elf _ _ _ = true from hp)) h))

/-- C20 (partial: tidy patterns): `!p` fails where `p` succeeds. -/
theorem C20_not_failure_partial (p : Pat) (t t' : List Ch)
    (hp : (Pat.not p).tidy false els elf false .any .any = true)
    (h : Recognises env p t (some t')) : Yields env (.not p) t none :=
  peg_yields henv hp (.not_none
    (recognises_peg henv (loose (show p.tidy false els elf _ _ _ = true from hp)) h))

/-- C20 (partial: tidy patterns): the converses: success without consuming means that `p` fails,
failure means that `p` succeeds, nothing else happens. -/
theorem C20_not_inv_partial (p : Pat) (t : List Ch) (o : Option (List Ch))
    (hp : (Pat.not p).tidy false els elf false .any .any = true)
    (h : Recognises env (.not p) t o) :
    (o = some t ∧ Yields env p t none) ∨ (o = none ∧ ∃ t', Yields env p t (some t')) := by
  have hl : p.Loose els elf := loose (show p.tidy false els elf _ _ _ = true from hp)
  rcases (recognises_peg henv hp h).not_inv with ⟨h1, u, h2⟩ | ⟨h1, h2⟩
  · exact .inr ⟨h1, u, peg_yields henv hl h2⟩
  · exact .inl ⟨h1, peg_yields henv hl h2⟩

/-- C20 (partial: tidy patterns): wherever and with whatever requirements `!p` is used, and
whether it succeeds or fails, the position is what it was before. -/
theorem C20_not_restores_position_partial (p : Pat) (r : Req)
    (hp : (Pat.not p).tidy false els elf false .any .any = true) (hr : r.recurChild = false)
    (dst bnd : Ref) (w w' : World SingleForward Mem) (res : Res) (hw : w.ds.Valid)
    (h : Applies env (elabP .fail r (.not p)) dst bnd w res w') :
    w'.ds.current = w.ds.current := by
  have he : elabP .fail r (.not p) =
      elabP .fail { r with FAILS_CLEANLY := true } (.not p) := by
    simp [elabP, Req.needsAtomic, Req.needsClean, Pat.ATOMIC, Pat.FAILS_CLEANLY, Req.skipper,
      Req.derive]
  rw [he] at h
  obtain ⟨_, _, ho⟩ := h.outcome (r := { r with FAILS_CLEANLY := true }) (c := true) (ls := .any)
    (lf := .any) henv hr rfl (show (Pat.not p).tidy false els elf true .any .any = true from hp) hw
  cases ho with
  | ok h1 h2 _ =>
    cases h1 with
    | not => exact h2
  | no _ _ h3 => exact h3 rfl

end

/-- C20 is false in general: `x >> -y` matches "xy"; `!(x >> -y)` fails there, but does not
restore the position. -/
theorem C20_refuted : ∃ m', Parses noEnv (.not (.seq [lx, .opt ly])) .nil ⟨[], []⟩ [120, 121]
    (.ok (.FAILURE, m', [121])) := ⟨_, parses_of_parseN (n := 12) rfl⟩

/-- `!(x >> y)` -/
def exNot : Pat := .not (.seq [lx, ly])
example : exNot.tidy false .none .none false .any .any = true := by decide
example : Recognises noEnv (.seq [lx, ly]) [120, 122] none ∧
    Recognises noEnv (.seq [lx, ly]) [120, 121] (some []) ∧
    Recognises noEnv exNot [120, 122] (some [120, 122]) ∧ Recognises noEnv exNot [120, 121] none :=
  ⟨⟨.nil, ⟨[], []⟩, .FAILURE, _, _, parses_of_parseN (n := 12) rfl, .no⟩,
   ⟨.nil, ⟨[], []⟩, .SUCCESS, _, _, parses_of_parseN (n := 12) rfl, .ok⟩,
   ⟨.nil, ⟨[], []⟩, .SUCCESS, _, _, parses_of_parseN (n := 12) rfl, .ok⟩,
   ⟨.nil, ⟨[], []⟩, .FAILURE, _, _, parses_of_parseN (n := 12) rfl, .no⟩⟩

/-! ### C21 -/

section
variable (env : Env) (els elf : Stale) (henv : env.tidy false els elf)
include henv

/-- C21 (partial: tidy patterns): `a - b` fails where `b` matches. -/
theorem C21_except_fails_partial (a b : Pat) (t t' : List Ch)
    (hp : (Pat.except a b).tidy false els elf false .any .any = true)
    (h : Recognises env b t (some t')) : Yields env (.except a b) t none :=
  peg_yields henv hp (.except_no (recognises_peg henv (loose (band_right hp)) h))

/-- C21 (partial: tidy patterns): `a - b` behaves as `a` where `b` fails. -/
theorem C21_except_behaves_as_operand_partial (a b : Pat) (t : List Ch) (o : Option (List Ch))
    (hp : (Pat.except a b).tidy false els elf false .any .any = true)
    (h : Recognises env b t none) (ha : Recognises env a t o) : Yields env (.except a b) t o :=
  peg_yields henv hp (.except (recognises_peg henv (loose (band_right hp)) h)
    (recognises_peg henv (loose (band_left hp)) ha))

/-- C21 (partial: tidy patterns): the converse. -/
theorem C21_except_inv_partial (a b : Pat) (t : List Ch) (o : Option (List Ch))
    (hp : (Pat.except a b).tidy false els elf false .any .any = true)
    (h : Recognises env (.except a b) t o) :
    (o = none ∧ ∃ t', Yields env b t (some t')) ∨ (Yields env b t none ∧ Yields env a t o) := by
  rcases (recognises_peg henv hp h).except_inv with ⟨h1, u, h2⟩ | ⟨h1, h2⟩
  · exact .inl ⟨h1, u, peg_yields henv (loose (band_right hp)) h2⟩
  · exact .inr ⟨peg_yields henv (loose (band_right hp)) h1,
      peg_yields henv (loose (band_left hp)) h2⟩

end

/-- C21 is false in general: `x >> -y >> z` fails on "xy" and `x >> y` matches it, but
`(x >> y) - (x >> -y >> z)` fails. -/
theorem C21_refuted : Recognises noEnv (.seq [lx, .opt ly, lz]) [120, 121] none ∧
    Recognises noEnv (.seq [lx, ly]) [120, 121] (some []) ∧
    Recognises noEnv (.except (.seq [lx, ly]) (.seq [lx, .opt ly, lz])) [120, 121] none :=
  ⟨⟨.nil, ⟨[], []⟩, .FAILURE, _, _, parses_of_parseN (n := 12) rfl, .no⟩,
   ⟨.nil, ⟨[], []⟩, .SUCCESS, _, _, parses_of_parseN (n := 12) rfl, .ok⟩,
   ⟨.nil, ⟨[], []⟩, .FAILURE, _, _, parses_of_parseN (n := 12) rfl, .no⟩⟩

/-- `(x >> y) - (x >> y >> z)` -/
def exExcept : Pat := .except (.seq [lx, ly]) (.seq [lx, ly, lz])
example : exExcept.tidy false .none .none false .any .any = true := by decide
example : Recognises noEnv exExcept [120, 121, 97] (some [97]) ∧
    Recognises noEnv exExcept [120, 121, 122] none ∧
    Recognises noEnv (.seq [lx, ly, lz]) [120, 121, 97] none :=
  ⟨⟨.nil, ⟨[], []⟩, .SUCCESS, _, _, parses_of_parseN (n := 12) rfl, .ok⟩,
   ⟨.nil, ⟨[], []⟩, .FAILURE, _, _, parses_of_parseN (n := 12) rfl, .no⟩,
   ⟨.nil, ⟨[], []⟩, .FAILURE, _, _, parses_of_parseN (n := 12) rfl, .no⟩⟩

/-! ### C22 -/

section
variable (env : Env) (els elf : Stale) (henv : env.tidy false els elf)
include henv

/-- C22 (partial: tidy patterns): `-p` behaves as `p` where `p` matches. -/
theorem C22_optional_present_partial (p : Pat) (t t' : List Ch)
    (hp : (Pat.opt p).tidy false els elf false .any .any = true)
    (h : Recognises env p t (some t')) : Yields env (.opt p) t (some t') :=
  peg_yields henv hp (.opt_some (recognises_peg henv (loose (band_right hp)) h))

/-- C22 (partial: tidy patterns): `-p` succeeds without consuming where `p` fails. -/
theorem C22_optional_absent_partial (p : Pat) (t : List Ch)
    (hp : (Pat.opt p).tidy false els elf false .any .any = true)
    (h : Recognises env p t none) : Yields env (.opt p) t (some t) :=
  peg_yields henv hp (.opt_none (recognises_peg henv (loose (band_right hp)) h))

/-- C22 (partial: tidy patterns): the converses. -/
theorem C22_optional_inv_partial (p : Pat) (t : List Ch) (o : Option (List Ch))
    (hp : (Pat.opt p).tidy false els elf false .any .any = true)
    (h : Recognises env (.opt p) t o) :
    (∃ t', o = some t' ∧ Yields env p t (some t')) ∨ (o = some t ∧ Yields env p t none) := by
  rcases (recognises_peg henv hp h).opt_inv with ⟨u, h1, h2⟩ | ⟨h1, h2⟩
  · exact .inl ⟨u, h1, peg_yields henv (loose (band_right hp)) h2⟩
  · exact .inr ⟨h1, peg_yields henv (loose (band_right hp)) h2⟩

end

/-- C22 is false in general: with "xac", `x >> -a >> b` fails like `x >> (a | pass) >> b`, but as
first alternative it makes a second alternative fail that would match. -/
theorem C22_refuted : Recognises noEnv (.seq [lx, .opt la, lb]) [120, 97, 99] none ∧
    Recognises noEnv (.seq [lx, .alt [la, .pass], lb]) [120, 97, 99] none ∧
    Recognises noEnv (.alt [.seq [lx, .alt [la, .pass], lb], .seq [lx, la, lc]]) [120, 97, 99]
      (some []) ∧
    Recognises noEnv (.alt [.seq [lx, .opt la, lb], .seq [lx, la, lc]]) [120, 97, 99] none :=
  ⟨⟨.nil, ⟨[], []⟩, .FAILURE, _, _, parses_of_parseN (n := 12) rfl, .no⟩,
   ⟨.nil, ⟨[], []⟩, .FAILURE, _, _, parses_of_parseN (n := 12) rfl, .no⟩,
   ⟨.nil, ⟨[], []⟩, .SUCCESS, _, _, parses_of_parseN (n := 12) rfl, .ok⟩,
   ⟨.nil, ⟨[], []⟩, .FAILURE, _, _, parses_of_parseN (n := 12) rfl, .no⟩⟩

/-- `-(x >> y)` -/
def exOpt : Pat := .opt (.seq [lx, ly])
example : exOpt.tidy false .none .none false .any .any = true := by decide
example : Recognises noEnv exOpt [120, 121, 97] (some [97]) ∧
    Recognises noEnv exOpt [120, 97] (some [120, 97]) :=
  ⟨⟨.nil, ⟨[], []⟩, .SUCCESS, _, _, parses_of_parseN (n := 12) rfl, .ok⟩,
   ⟨.nil, ⟨[], []⟩, .SUCCESS, _, _, parses_of_parseN (n := 12) rfl, .ok⟩⟩

/-! ### C23, C24 -/

/-- C23 (partial: tidy patterns): a parser that is required to fail cleanly leaves the data source
where it was when it fails, wherever it is used. -/
theorem C23_clean_failure_partial (env : Env) (els elf : Stale) (henv : env.tidy false els elf)
    (p : Pat) (r : Req) (ls lf : Stale) (hclean : r.FAILS_CLEANLY = true)
    (hr : r.recurChild = false) (hp : p.tidy false els elf true ls lf = true)
    (dst bnd : Ref) (w w' : World SingleForward Mem) (hw : w.ds.Valid)
    (h : Applies env (elabP .fail r p) dst bnd w .FAILURE w') :
    w'.ds.current = w.ds.current := by
  obtain ⟨_, _, ho⟩ := h.outcome henv hr hclean.symm hp hw
  cases ho with
  | no _ _ h3 => exact h3 rfl

/-- C24 (partial: tidy patterns that may not leave stale rollback points): the rollback points
after the use of a parser are those that were there before. -/
theorem C24_rollback_points_closed_partial (env : Env) (els elf : Stale)
    (henv : env.tidy false els elf) (p : Pat) (r : Req) (hr : r.recurChild = false)
    (hp : p.tidy false els elf r.FAILS_CLEANLY .none .none = true)
    (dst bnd : Ref) (w w' : World SingleForward Mem) (hw : w.ds.Valid) (res : Res)
    (h : Applies env (elabP .fail r p) dst bnd w res w') :
    w'.ds.stack = w.ds.stack := by
  obtain ⟨_, _, ho⟩ := h.outcome henv hr rfl hp hw
  cases ho with
  | ok _ _ h3 => exact h3.eq
  | no _ h3 _ => exact h3.eq

/-- A use of a parser, by running it. -/
theorem applies_of_run {env : Env} {P : Prog} {dst bnd w r w' st w1 st'} (n : Nat)
    (h1 : construct P dst bnd w = .ok (st, w1))
    (h2 : run env n P dst bnd st w1 = .ok ((r, st'), w')) : Applies env P dst bnd w r w' :=
  ⟨st, w1, st', h1, by simp, n, h2⟩

/-- What alternatives require of their children. -/
def altReqs : Req := { DefaultReqs with FAILS_CLEANLY := true }

/-- C23 is false in general: `Int<10, 1, 1>` is used as it is where a clean failure is required,
but on "-x" it fails after consuming the sign. -/
theorem C23_refuted_int : ∃ m', Applies noEnv (elabP .fail altReqs (.int 10 1 1)) .nil .nil
    ⟨SingleForward.make [45, 120], ⟨[], []⟩⟩ .FAILURE ⟨⟨[45, 120], 1, 2, []⟩, m'⟩ :=
  ⟨_, applies_of_run (n := 5) rfl rfl⟩

/-- C23 is false in general: `x >> -a >> b` restores the wrong position. -/
theorem C23_refuted_optional :
    ∃ m' S, Applies noEnv (elabP .fail altReqs (.seq [lx, .opt la, lb])) .nil .nil
      ⟨SingleForward.make [120, 97, 99], ⟨[], []⟩⟩ .FAILURE ⟨⟨[120, 97, 99], 1, 3, S⟩, m'⟩ :=
  ⟨_, _, applies_of_run (n := 9) rfl rfl⟩

/-- C24 is false in general: `-a` on "a" leaves a rollback point. -/
theorem C24_refuted : ∃ m', Applies noEnv (elabP .fail DefaultReqs (.opt la)) .nil .nil
    ⟨SingleForward.make [97], ⟨[], []⟩⟩ .SUCCESS ⟨⟨[97], 1, 1, [0]⟩, m'⟩ :=
  ⟨_, applies_of_run (n := 9) rfl rfl⟩

/-- `x >> y` in the middle of a text, with a rollback point of somebody else: it fails after
consuming the `x`. -/
example : (Pat.seq [lx, ly]).tidy false .none .none true .none .none = true := by decide
example : (⟨[97, 120, 97], 1, 3, [0]⟩ : SingleForward).Valid := by
  refine ⟨rfl, by decide, ?_⟩
  intro p hp; simp at hp; subst hp; decide
example : ∃ m', Applies noEnv (elabP .fail altReqs (.seq [lx, ly])) .nil .nil
    ⟨⟨[97, 120, 97], 1, 3, [0]⟩, ⟨[], []⟩⟩ .FAILURE ⟨⟨[97, 120, 97], 1, 3, [0]⟩, m'⟩ :=
  ⟨_, applies_of_run (n := 9) rfl rfl⟩

end Abu
