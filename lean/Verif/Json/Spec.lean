/-!
# JSON texts and what they stand for

The grammar of RFC 8259, written down as relations between a text and the value it stands for.
Nothing here comes from the code: it is what the programs of the package that write JSON
(`cwl-pack`, `cwl-graph-split`, `cwl-normalizer`, `cwl-inputs-schema-gen`) and the ones that read it
(the results of JavaScript expressions) are measured against.

Simplifications: a number with a fraction or an exponent stands for its own text (no arithmetic of
floating point numbers); a string stands for its UTF-16 code units, as it does in JavaScript.
-/
namespace CwlUtils.Json

abbrev Text := List Char

/-- Texts that Python's `json` writes for numbers that are not finite; RFC 8259 does not have
them. -/
inductive Special
  | nan | inf | ninf
deriving DecidableEq, Repr

/-- A JSON value.  Members of an object are kept in order and with repetitions. -/
inductive J
  | null
  | bool (b : Bool)
  | int (i : Int)
  | dec (t : Text)
  | special (s : Special)
  | str (u : List Nat)
  | arr (l : List J)
  | obj (m : List (List Nat × J))
deriving Repr

/-- Spaces between tokens. -/
def isWs (c : Char) : Bool := c == ' ' || c == '\t' || c == '\n' || c == '\r'

def Ws (w : Text) : Prop := ∀ c ∈ w, isWs c = true

def isDigit (c : Char) : Bool := 48 ≤ c.toNat && c.toNat ≤ 57

def Digits (ds : Text) : Prop := ∀ c ∈ ds, isDigit c = true

/-- A sequence of digits without needless zeros. -/
inductive NatText : Text → Prop
  | zero : NatText ['0']
  | pos {c : Char} {ds : Text} : isDigit c = true → c ≠ '0' → Digits ds → NatText (c :: ds)

/-- The number a sequence of digits stands for. -/
def natOf (t : Text) : Nat := t.foldl (fun n c => n * 10 + (c.toNat - 48)) 0

inductive IntText : Text → Int → Prop
  | pos {t : Text} : NatText t → IntText t (natOf t)
  | neg {t : Text} : NatText t → IntText ('-' :: t) (-(natOf t : Int))

def Frac (f : Text) : Prop := f = [] ∨ ∃ ds, ds ≠ [] ∧ Digits ds ∧ f = '.' :: ds

def Expo (e : Text) : Prop :=
  e = [] ∨ ∃ c s ds, (c = 'e' ∨ c = 'E') ∧ (s = [] ∨ s = ['+'] ∨ s = ['-']) ∧ ds ≠ [] ∧ Digits ds ∧
    e = c :: (s ++ ds)

/-- A number with a fraction or an exponent. -/
inductive DecText : Text → Prop
  | mk {s n f e : Text} : (s = [] ∨ s = ['-']) → NatText n → Frac f → Expo e → ¬(f = [] ∧ e = []) →
      DecText (s ++ n ++ f ++ e)

/-- UTF-16 code units of a code point. -/
def unitsOf (n : Nat) : List Nat :=
  if n < 0x10000 then [n] else [0xD800 + (n - 0x10000) / 0x400, 0xDC00 + (n - 0x10000) % 0x400]

/-- Value of a hexadecimal digit. -/
def hexVal (c : Char) : Option Nat :=
  if 48 ≤ c.toNat ∧ c.toNat ≤ 57 then some (c.toNat - 48)
  else if 97 ≤ c.toNat ∧ c.toNat ≤ 102 then some (c.toNat - 87)
  else if 65 ≤ c.toNat ∧ c.toNat ≤ 70 then some (c.toNat - 55)
  else none

/-- The short escapes. -/
def shortEscapes : List (Char × Nat) :=
  [('"', 34), ('\\', 92), ('/', 47), ('b', 8), ('f', 12), ('n', 10), ('r', 13), ('t', 9)]

/-- One character of a string, and its code units. -/
inductive Chr : Text → List Nat → Prop
  | plain {c : Char} : 0x20 ≤ c.toNat → c ≠ '"' → c ≠ '\\' → Chr [c] (unitsOf c.toNat)
  | short {c : Char} {n : Nat} : (c, n) ∈ shortEscapes → Chr ['\\', c] [n]
  | long {a b c d : Char} {w x y z : Nat} : hexVal a = some w → hexVal b = some x → hexVal c = some y →
      hexVal d = some z → Chr ['\\', 'u', a, b, c, d] [((w * 16 + x) * 16 + y) * 16 + z]

inductive Chars : Text → List Nat → Prop
  | nil : Chars [] []
  | cons {t r : Text} {u v : List Nat} : Chr t u → Chars r v → Chars (t ++ r) (u ++ v)

/-- A string with its quotes. -/
def StrText (t : Text) (u : List Nat) : Prop := ∃ b, t = '"' :: (b ++ ['"']) ∧ Chars b u

def specialText : Special → Text
  | .nan => ['N', 'a', 'N']
  | .inf => ['I', 'n', 'f', 'i', 'n', 'i', 't', 'y']
  | .ninf => ['-', 'I', 'n', 'f', 'i', 'n', 'i', 't', 'y']

mutual
/-- The text (without spaces around it) stands for the value.  With `ext` the numbers that are not
finite are allowed, without it this is RFC 8259. -/
inductive Means (ext : Bool) : Text → J → Prop
  | null : Means ext ['n', 'u', 'l', 'l'] .null
  | true : Means ext ['t', 'r', 'u', 'e'] (.bool true)
  | false : Means ext ['f', 'a', 'l', 's', 'e'] (.bool false)
  | int {t : Text} {i : Int} : IntText t i → Means ext t (.int i)
  | dec {t : Text} : DecText t → Means ext t (.dec t)
  | special {s : Special} : ext = Bool.true → Means ext (specialText s) (.special s)
  | str {t : Text} {u : List Nat} : StrText t u → Means ext t (.str u)
  | arr0 {w : Text} : Ws w → Means ext ('[' :: (w ++ [']'])) (.arr [])
  | arr {t : Text} {l : List J} : Elems ext t l → Means ext ('[' :: (t ++ [']'])) (.arr l)
  | obj0 {w : Text} : Ws w → Means ext ('{' :: (w ++ ['}'])) (.obj [])
  | obj {t : Text} {m : List (List Nat × J)} : Members ext t m → Means ext ('{' :: (t ++ ['}'])) (.obj m)
/-- One or more values with commas between them. -/
inductive Elems (ext : Bool) : Text → List J → Prop
  | one {w t w' : Text} {v : J} : Ws w → Means ext t v → Ws w' → Elems ext (w ++ (t ++ w')) [v]
  | more {w t w' r : Text} {v : J} {l : List J} : Ws w → Means ext t v → Ws w' → Elems ext r l →
      Elems ext (w ++ (t ++ (w' ++ ',' :: r))) (v :: l)
/-- One or more pairs of a name and a value with commas between them. -/
inductive Members (ext : Bool) : Text → List (List Nat × J) → Prop
  | one {a k b c t d : Text} {u : List Nat} {v : J} : Ws a → StrText k u → Ws b → Ws c → Means ext t v →
      Ws d → Members ext (a ++ (k ++ (b ++ ':' :: (c ++ (t ++ d))))) [(u, v)]
  | more {a k b c t d r : Text} {u : List Nat} {v : J} {m : List (List Nat × J)} : Ws a → StrText k u →
      Ws b → Ws c → Means ext t v → Ws d → Members ext r m →
      Members ext (a ++ (k ++ (b ++ ':' :: (c ++ (t ++ (d ++ ',' :: r)))))) ((u, v) :: m)
end

/-- A whole text: a value with spaces around it. -/
def Denotes (ext : Bool) (t : Text) (v : J) : Prop :=
  ∃ w s w', Ws w ∧ Means ext s v ∧ Ws w' ∧ t = w ++ (s ++ w')

end CwlUtils.Json
