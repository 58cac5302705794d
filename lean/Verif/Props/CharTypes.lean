import Verif.Props.Chars
import Verif.Proofs.Eval
import Verif.Proofs.TextTypes
/-
C65: character sets and texts of different character types.
-/
namespace Abu

/-- Values of the type; for `char32_t` those that are code points. -/
def CharTy.Has : CharTy → Ch → Prop
  | .char, x => IsChar x
  | .wide, x => 0 ≤ x ∧ x ≤ 0x10FFFF

/-- What a user writes to build a character set, with the character types. -/
inductive TSet
  | any (t : CharTy)
  | single (t : CharTy) (c : Ch)
  | range (t : CharTy) (a b : Ch)
  /-- `set("...")` -/
  | str (s : List Ch)
  /-- `set(b, e)` -/
  | iter (t : CharTy) (s : List Ch)
  | pred (t : CharTy) (f : Ch → Bool)
  | not (e : TSet)
  | or (l r : TSet)

/-- Without the types. -/
def TSet.plain : TSet → SetExpr
  | .any _ => .any
  | .single _ c => .single c
  | .range _ a b => .range a b
  | .str s => .set s
  | .iter _ s => .iter s
  | .pred _ f => .pred f
  | .not e => .not e.plain
  | .or l r => .or l.plain r.plain

/-- Its `char_t`. -/
def TSet.ty : TSet → CharTy
  | .any t => t
  | .single t _ => t
  | .range t _ _ => t
  | .str _ => .char
  | .iter t _ => t
  | .pred t _ => t
  | .not e => e.ty
  | .or l _ => l.ty

/-- `single(c)`. -/
def TSet.isSingle : TSet → Bool
  | .single .. => true
  | _ => false

/-- The program compiles: both operands of `|` have the same character type (char_set/or.h:36), and
`is_valid` of `Set` can only be called for `char` (char_set/set.h:30-33: the template parameter
cannot be deduced). -/
def TSet.Compiles : TSet → Prop
  | .iter t _ => t = .char
  | .not e => e.Compiles
  | .or l r => l.ty = r.ty ∧ l.Compiles ∧ r.Compiles
  | _ => True

/-- The constants are values of their types, ranges are ordered, C strings have no NUL. -/
def TSet.Legal : TSet → Prop
  | .single t c => t.Has c
  | .range t a b => t.Has a ∧ t.Has b ∧ a ≤ b
  | .str s => ∀ c ∈ s, IsChar c ∧ c ≠ 0
  | .iter t s => ∀ c ∈ s, t.Has c
  | .not e => e.Legal
  | .or l r => l.Legal ∧ r.Legal
  | _ => True

/-- The object the library builds. -/
def TSet.build : TSet → CharSet
  | .any _ => .any
  | .single _ c => .single c
  | .range _ a b => .range a b
  | .str s => setOfCString (s ++ [0])
  | .iter _ s => setOfRange s
  | .pred _ f => .delegated f
  | .not e => .not e.build
  | .or l r => .or l.build r.build

/-- What a source with characters of type `t` sees of it. -/
def TSet.on (t : CharTy) (e : TSet) : CharSet :=
  match t, e.ty with
  | .wide, .char => .ofChar e.build
  | .char, .wide => .ofWide e.build
  | _, _ => e.build

theorem TSet.build_valid (e : TSet) (hc : e.Compiles) (hl : e.Legal) (x : Ch)
    (hx : e.ty = .char → IsChar x) : e.build.isValid x = true ↔ e.plain.denotes x := by
  induction e with
  | any t => simp [TSet.build, CharSet.isValid, TSet.plain, SetExpr.denotes]
  | single t c => simp [TSet.build, CharSet.isValid, TSet.plain, SetExpr.denotes]
  | range t a b => simp [TSet.build, CharSet.isValid, TSet.plain, SetExpr.denotes]
  | str s => exact C06_char_sets_denote (.set s) hl x (hx rfl)
  | iter t s =>
    have ht : t = .char := hc
    subst ht
    simp only [TSet.build, setOfRange, CharSet.isValid, TSet.plain, SetExpr.denotes, indexedSet,
      indexedSet_test]
    constructor
    · rintro (h1 | ⟨c, hc, he⟩)
      · simp [BitSet.none, BitSet.test] at h1
      · rw [← asIndex_inj (hl c hc) (hx rfl) he]; exact hc
    · intro hm; exact .inr ⟨x, hm, rfl⟩
  | pred t f => simp [TSet.build, CharSet.isValid, TSet.plain, SetExpr.denotes]
  | not e ih =>
    have := ih hc hl hx
    simp only [TSet.build, CharSet.isValid, TSet.plain, SetExpr.denotes, ← this]; simp
  | or l r ihl ihr =>
    have h1 := ihl hc.2.1 hl.1 hx
    have h2 := ihr hc.2.2 hl.2 (by rw [← hc.1]; exact hx)
    simp only [TSet.build, CharSet.isValid, TSet.plain, SetExpr.denotes, ← h1, ← h2]; simp

theorem narrow_isChar (x : Ch) : IsChar (narrow x) := by
  unfold narrow IsChar; omega

theorem isChar_iff_narrow (x : Ch) : IsChar x ↔ narrow x = x := by
  unfold narrow IsChar; omega

theorem TSet.on_same (t : CharTy) (e : TSet) (he : e.ty = t) : e.on t = e.build := by
  unfold TSet.on
  cases t <;> simp [he]

/-- C65, on texts of the same character type: the set accepts exactly what it denotes. -/
theorem C65_same_type (t : CharTy) (e : TSet) (ht : e.ty = t) (hc : e.Compiles) (hl : e.Legal)
    (x : Ch) (hx : t.Has x) : (e.on t).isValid x = true ↔ e.plain.denotes x := by
  rw [TSet.on_same t e ht]
  refine TSet.build_valid e hc hl x fun h => ?_
  rw [h] at ht
  subst ht
  exact hx

/-- C65, what a set of `char` accepts in a text of wider characters: what it denotes after the
upper bits have been dropped. Single characters are compared as they are. -/
theorem C65_narrowed (e : TSet) (ht : e.ty = .char) (hc : e.Compiles) (hl : e.Legal) (x y : Ch)
    (hx : CharTy.wide.Holds x) (hy : Converted .char x y) :
    (e.on .wide).isValid x = true ↔
      (if e.isSingle = true then e.plain.denotes x else e.plain.denotes y) := by
  rw [converted_iff hx] at hy
  have hy : narrow x = y := hy
  subst hy
  have hon : e.on .wide = .ofChar e.build := by unfold TSet.on; simp [ht]
  rw [hon]
  have key := TSet.build_valid e hc hl (narrow x) fun _ => narrow_isChar x
  cases e with
  | single t c =>
    rw [if_pos (show (TSet.single t c).isSingle = true from rfl)]
    simp [TSet.build, CharSet.isValid, TSet.plain, SetExpr.denotes]
  | _ =>
    rw [if_neg (by simp [TSet.isSingle])]
    exact key

/-- C65, what a set of `char32_t` accepts in a text of `char`: negative `char`s are taken for
huge code points. -/
theorem C65_widened (e : TSet) (ht : e.ty = .wide) (hc : e.Compiles) (hl : e.Legal) (x y : Ch)
    (hx : CharTy.char.Holds x) (hy : Converted .wide x y) :
    (e.on .char).isValid x = true ↔ e.plain.denotes y := by
  rw [converted_iff hx] at hy
  have hy : widen x = y := hy
  subst hy
  have hon : e.on .char = .ofWide e.build := by unfold TSet.on; simp [ht]
  rw [hon]
  have key := TSet.build_valid e hc hl (widen x) fun h => by rw [ht] at h; cases h
  exact key

/-- C65, for all combinations of types: ASCII characters are treated as the set denotes. -/
theorem C65_ascii_partial (t : CharTy) (e : TSet) (hc : e.Compiles) (hl : e.Legal) (x : Ch)
    (h0 : 0 ≤ x) (h1 : x ≤ 127) : (e.on t).isValid x = true ↔ e.plain.denotes x := by
  have hch : IsChar x := ⟨by omega, h1⟩
  by_cases he : e.ty = t
  · exact C65_same_type t e he hc hl x (by cases t; exact hch; exact ⟨h0, by omega⟩)
  · cases t with
    | char =>
      have hw : e.ty = .wide := by cases h : e.ty <;> simp_all
      exact C65_widened e hw hc hl x x ⟨by omega, h1⟩ ⟨⟨h0, by omega⟩, 0, by omega⟩
    | wide =>
      have hw : e.ty = .char := by cases h : e.ty <;> simp_all
      rw [C65_narrowed e hw hc hl x x ⟨h0, by omega⟩ ⟨⟨by omega, h1⟩, 0, by omega⟩]
      split <;> rfl

/-- C65 is false: `char_('a', 'z')` takes LATIN SMALL LETTER S WITH CARON (U+0161). -/
theorem C65_refuted : ∃ e : TSet, e.Compiles ∧ e.Legal ∧ CharTy.wide.Has 0x161 ∧
    ¬ e.plain.denotes 0x161 ∧ ∀ env m, Parses env (.char (e.on .wide)) .nil m [0x161]
      (.ok (.SUCCESS, m, [])) :=
  ⟨.range .char 97 122, trivial, ⟨⟨by decide, by decide⟩, ⟨by decide, by decide⟩, by decide⟩,
    ⟨by decide, by decide⟩, by simp [TSet.plain, SetExpr.denotes],
    fun _ _ => parses_of_parseN (n := 3) rfl⟩

/-- C65 is false: `char_(~single('a'))` does not take it. -/
theorem C65_refuted_not : ∃ e : TSet, e.Compiles ∧ e.Legal ∧ CharTy.wide.Has 0x161 ∧
    e.plain.denotes 0x161 ∧ ∀ env m, Parses env (.char (e.on .wide)) .nil m [0x161]
      (.ok (.FAILURE, m, [0x161])) :=
  ⟨.not (.single .char 97), trivial, ⟨by decide, by decide⟩, ⟨by decide, by decide⟩,
    by simp [TSet.plain, SetExpr.denotes], fun _ _ => parses_of_parseN (n := 3) rfl⟩

/-- What becomes of `0xE9` (as a `char`: -23) in a text of `char32_t`, and of U+0161 as a `char`. -/
example : Converted .wide (-23) 0xFFFFFFE9 ∧ Converted .char 0x161 97 :=
  ⟨⟨⟨by decide, by decide⟩, -1, rfl⟩, ⟨by decide, by decide⟩, 1, rfl⟩

/-- The set of the code points from U+0080 to U+00FF does not take `0xE9` from a text of `char`. -/
example : (TSet.on .char (.range .wide 0x80 0xFF)).isValid (-23) = false ∧
    (TSet.on .wide (.range .wide 0x80 0xFF)).isValid 0xE9 = true := by decide

/-- `set("abc") | range('x', 'z')` on a text of `char32_t`. -/
example : (TSet.or (.str [97, 98, 99]) (.range .char 120 122)).Compiles ∧
    (TSet.or (.str [97, 98, 99]) (.range .char 120 122)).Legal ∧
    (TSet.or (.str [97, 98, 99]) (.range .char 120 122)).ty = .char := by
  refine ⟨⟨rfl, trivial, trivial⟩, ⟨?_, ⟨by decide, by decide⟩, ⟨by decide, by decide⟩, by decide⟩, rfl⟩
  intro c hc
  simp only [List.mem_cons, List.not_mem_nil, or_false] at hc
  rcases hc with rfl | rfl | rfl <;> exact ⟨⟨by decide, by decide⟩, by decide⟩

end Abu
