import Verif.Py.Utf8
/-
What normalize_iri and the operations of a Profile should do; independent of the model.
-/
namespace Verif.Spec

/-- `Escapes s bs`: the text `s` is a run of percent escapes of the bytes `bs`, in either case. -/
inductive Escapes : PStr → List Nat → Prop
  | nil : Escapes [] []
  | cons {a b x y s bs} : hexVal? a = some x → hexVal? b = some y → Escapes s bs → Escapes (0x25 :: a :: b :: s) ((16 * x + y) :: bs)

/-- The text starts with an escape of a byte that is not a control character or the space. -/
def StartsEscaped (s : PStr) : Prop := ∃ e r b, s = e ++ r ∧ Escapes e [b] ∧ 0x20 < b

/-- Reserved characters of RFC 3986 and the percent sign. -/
def reservedChar (c : Nat) : Prop := c ∈ py! ":/?#[]@" ∨ c ∈ py! "!$&'()*+,;=" ∨ c = 0x25

instance (c : Nat) : Decidable (reservedChar c) := by unfold reservedChar; infer_instance

/-- A decoded character: reserved characters stay escaped (with upper case digits). -/
def keepReserved (c : Nat) : PStr := if reservedChar c then 0x25 :: fmt02X c else [c]

/-- `NormalizesTo u w`: every maximal run of escapes of bytes above 0x20 is decoded as UTF-8, except for reserved characters; the rest of the text is kept. -/
inductive NormalizesTo : PStr → PStr → Prop
  | nil : NormalizesTo [] []
  | run {s bs v r w} : bs ≠ [] → Escapes s bs → (∀ b ∈ bs, 0x20 < b) → ¬ StartsEscaped r → utf8Decode bs = some v → NormalizesTo r w →
      NormalizesTo (s ++ r) (v.flatMap keepReserved ++ w)
  | char {c r w} : ¬ StartsEscaped (c :: r) → NormalizesTo r w → NormalizesTo (c :: r) (c :: w)

/-- What can be seen of a Profile: its prefixes, its terms and its default vocabulary. -/
structure View where
  pre : PStr → Option PStr
  term : PStr → Option PStr
  vocab : Option PStr

/-- Bindings `f` with one more. -/
def bind1 (f : PStr → Option PStr) (k v : PStr) : PStr → Option PStr := fun x => if x = k then some v else f x

/-- Bindings of `f`, and those of `g` for what `f` does not bind. -/
def preferring (f g : PStr → Option PStr) : PStr → Option PStr := fun x => (f x).or (g x)

end Verif.Spec
