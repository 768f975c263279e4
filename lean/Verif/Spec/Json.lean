import Verif.Base.Bytes
/-!
# JSON texts (RFC 8259)

The grammar of JSON without whitespace, for natural numbers, strings, arrays and objects.
-/

namespace EvmMinter
namespace Spec

inductive Json where
  | num (n : Nat)
  | str (s : List Char)
  | arr (l : List Json)
  | obj (l : List (List Char × Json))

namespace Json

/-- The value of a digit. -/
inductive Digit : Char → Nat → Prop where
  | zero : Digit '0' 0
  | one : Digit '1' 1
  | two : Digit '2' 2
  | three : Digit '3' 3
  | four : Digit '4' 4
  | five : Digit '5' 5
  | six : Digit '6' 6
  | seven : Digit '7' 7
  | eight : Digit '8' 8
  | nine : Digit '9' 9

/-- The value of a small hexadecimal digit. -/
inductive HexDigit : Char → Nat → Prop where
  | digit {c : Char} {n : Nat} : Digit c n → HexDigit c n
  | a : HexDigit 'a' 10
  | b : HexDigit 'b' 11
  | c : HexDigit 'c' 12
  | d : HexDigit 'd' 13
  | e : HexDigit 'e' 14
  | f : HexDigit 'f' 15

/-- A number without leading zeros. -/
inductive Number : List Char → Nat → Prop where
  | digit {c : Char} {n : Nat} : Digit c n → Number [c] n
  | more {t : List Char} {c : Char} {m n : Nat} : Number t m → 0 < m → Digit c n → Number (t ++ [c]) (10 * m + n)

/-- A character of a string. -/
inductive Character : List Char → Char → Prop where
  | plain {c : Char} : c ≠ '"' → c ≠ '\\' → 0x20 ≤ c.toNat → Character [c] c
  | quote : Character ['\\', '"'] '"'
  | backslash : Character ['\\', '\\'] '\\'
  | backspace : Character ['\\', 'b'] '\x08'
  | formFeed : Character ['\\', 'f'] '\x0c'
  | lineFeed : Character ['\\', 'n'] '\n'
  | carriageReturn : Character ['\\', 'r'] '\r'
  | tab : Character ['\\', 't'] '\t'
  | unicode {a b c d x : Char} {i j k l : Nat} : HexDigit a i → HexDigit b j → HexDigit c k → HexDigit d l →
      x.toNat = 4096 * i + 256 * j + 16 * k + l → Character ['\\', 'u', a, b, c, d] x

inductive Characters : List Char → List Char → Prop where
  | nil : Characters [] []
  | cons {t u s : List Char} {c : Char} : Character t c → Characters u s → Characters (t ++ u) (c :: s)

mutual

/-- `Text t v`: the text `t` stands for the value `v`. -/
inductive Text : List Char → Json → Prop where
  | num {t : List Char} {n : Nat} : Number t n → Text t (.num n)
  | str {t s : List Char} : Characters t s → Text (['"'] ++ t ++ ['"']) (.str s)
  | arr {t : List Char} {l : List Json} : Elements t l → Text (['['] ++ t ++ [']']) (.arr l)
  | obj {t : List Char} {l : List (List Char × Json)} : Members t l → Text (['{'] ++ t ++ ['}']) (.obj l)

inductive Elements : List Char → List Json → Prop where
  | nil : Elements [] []
  | one {t : List Char} {v : Json} : Text t v → Elements t [v]
  | more {t u : List Char} {v w : Json} {l : List Json} : Text t v → Elements u (w :: l) → Elements (t ++ [','] ++ u) (v :: w :: l)

inductive Members : List Char → List (List Char × Json) → Prop where
  | nil : Members [] []
  | one {k t : List Char} {s : List Char} {v : Json} : Characters k s → Text t v → Members (['"'] ++ k ++ ['"', ':'] ++ t) [(s, v)]
  | more {k t u s : List Char} {v : Json} {m : List Char × Json} {l : List (List Char × Json)} : Characters k s → Text t v → Members u (m :: l) →
      Members (['"'] ++ k ++ ['"', ':'] ++ t ++ [','] ++ u) ((s, v) :: m :: l)

end

end Json
end Spec
end EvmMinter
