/-
Character sets: /repo/include/abulafia/char_set/*.h

Characters are modelled by their numeric value (`Int`), whatever the C++ character
type is (`char`, `char32_t`, ...).  `char` is the range -128..127 (the usual signed
`char`).

The character type of a set is the character type of the data source, except for the sets
`ofChar` and `ofWide`, which convert the character first.
-/
namespace Abu

/-- A character of the input, by numeric value. -/
notation "Ch" => Int

/-- Implicit conversion of a character value to C++ `char` (8 bits, two's complement).
It is the identity on `char` values. It is applied by C++ when a wider character is
passed to a function that takes a `char`
(parsers/helpers/digit_values.h:28,29,38,43). -/
def narrow (c : Ch) : Ch := (c + 128) % 256 - 128

/-- Implicit conversion of a `char` value to `char32_t` (32 bits, unsigned). -/
def widen (c : Ch) : Ch := c % 2 ^ 32

/-- Values a C++ (signed) `char` can take. -/
def IsChar (c : Ch) : Prop := -128 ≤ c ∧ c ≤ 127

instance (c : Ch) : Decidable (IsChar c) := inferInstanceAs (Decidable (_ ∧ _))

/-- char_set/set.h:57 `IndexedSet<char>::as_index`: conversion to `unsigned char`. -/
def asIndex (c : Ch) : Nat := (c % 256).toNat

/-- `std::bitset<256>`: which bits are set. Reading or writing at 256 or beyond is out of
range in C++ (`test` throws), so the functions below are only used at `asIndex` results. -/
structure BitSet where
  bits : Nat → Bool

/-- A bitset with no bit set (default constructor of `std::bitset`). -/
def BitSet.none : BitSet := ⟨fun _ => false⟩

/-- `characters_[i] = true` (char_set/set.h:48). -/
def BitSet.set (b : BitSet) (i : Nat) : BitSet := ⟨fun j => if j = i then true else b.bits j⟩

/-- `characters_.test(i)` (char_set/set.h:52). -/
def BitSet.test (b : BitSet) (i : Nat) : Bool := b.bits i

/-- char_set/set.h:45-50, constructor of `IndexedSet` from a range: loop over the range. -/
def indexedSet (cs : List Ch) : BitSet :=
  cs.foldl (fun b c => b.set (asIndex c)) BitSet.none

/-- Character set objects. -/
inductive CharSet
  /-- char_set/any.h:19-23 -/
  | any
  /-- char_set/single.h:19-30 -/
  | single (c : Ch)
  /-- char_set/range.h:20-33 -/
  | range (b e : Ch)
  /-- char_set/set.h:41-60,62-65: `Set<char>`, an `IndexedSet<char>`. The generic `Set`
  (set.h:24-37) has an uncallable `is_valid` and is not modelled. -/
  | indexed (bits : BitSet)
  /-- char_set/delegated.h:23-32: user callback, assumed deterministic as documented. -/
  | delegated (cb : Ch → Bool)
  /-- char_set/not.h:22-32 -/
  | not (s : CharSet)
  /-- char_set/or.h:20-37 -/
  | or (l r : CharSet)
  /-- a set whose `char_t` is `char`, used on a source of wider characters: the character is
  converted at the call of `is_valid` (parsers/coroutine/leaf/character.h:32), see `isValid` -/
  | ofChar (s : CharSet)
  /-- a set whose `char_t` is `char32_t`, used on a source of `char`; `Single` compares after the
  same conversion -/
  | ofWide (s : CharSet)

/-- `is_valid` of the character sets (line references at the constructors above). -/
def CharSet.isValid : CharSet → Ch → Bool
  | .any, _ => true
  | .single c, x => x == c
  | .range b e, x => decide (b ≤ x) && decide (x ≤ e)
  | .indexed bs, x => bs.test (asIndex x)
  | .delegated cb, x => cb x
  | .not s, x => !(s.isValid x)
  | .or l r, x => l.isValid x || r.isValid x
  -- `Single::is_valid` is a template on the type of its argument (single.h:24-27): no conversion
  | .ofChar (.single c), x => x == c
  -- the others take a `char_t const&`
  | .ofChar s, x => s.isValid (narrow x)
  | .ofWide s, x => s.isValid (widen x)

/-- char_set/set.h:74 `set(char const* v)`: the characters up to the terminating NUL,
`[v, v + strlen(v))`. The argument is the content of the memory `v` points to. -/
def setOfCString (v : List Ch) : CharSet :=
  .indexed (indexedSet (v.takeWhile (· ≠ 0)))

/-- char_set/set.h:68-71 `set(b, e)` over `char` iterators. -/
def setOfRange (v : List Ch) : CharSet := .indexed (indexedSet v)

end Abu
