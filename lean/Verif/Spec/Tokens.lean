import Verif.Spec.Names
import Verif.Model.Token

/-! What tokens are, in terms of the characters of the source. -/

namespace Pas.Spec

open Pas.Tok (Input State getToken)
open Pas.Names (Entry)

/-- The characters the tokenizer has in front of it: the current one, the rest of the line buffer
and the lines still to be read. -/
def Coming (i : Input) (cs : List Byte) : Prop := i.inChar :: (i.rest ++ i.lines.flatten) = cs

/-- The Pascal literal for a text: quotes around it, quotes in it doubled. -/
def quoted (w : List Byte) : List Byte :=
  39#8 :: (w.flatMap (fun c => if c = 39#8 then [39#8, 39#8] else [c]) ++ [39#8])

/-- Letters, digits and the underscore. -/
def Letter (b : Byte) : Prop := (65 ≤ b.toNat ∧ b.toNat ≤ 90) ∨ (97 ≤ b.toNat ∧ b.toNat ≤ 122)
/-- See `Letter`. -/
def Digit (b : Byte) : Prop := 48 ≤ b.toNat ∧ b.toNat ≤ 57
/-- A character that may occur in an identifier. -/
def IdentChar (b : Byte) : Prop := Letter b ∨ Digit b ∨ b.toNat = 95

/-- An identifier: letters, digits and underscores, not starting with a digit. -/
def Identifier (w : List Byte) : Prop :=
  (∀ b ∈ w, IdentChar b) ∧ ∃ b r, w = b :: r ∧ ¬ Digit b

/-- The number a string of decimal digits denotes. -/
def decimal : List Byte → Nat
  | [] => 0
  | d :: ds => (d.toNat - 48) * 10 ^ ds.length + decimal ds

/-- The value of a hexadecimal digit. -/
def hexDigit (b : Byte) : Option Nat :=
  if 48 ≤ b.toNat ∧ b.toNat ≤ 57 then some (b.toNat - 48)
  else if 65 ≤ b.toNat ∧ b.toNat ≤ 70 then some (b.toNat - 55)
  else if 97 ≤ b.toNat ∧ b.toNat ≤ 102 then some (b.toNat - 87)
  else none

/-- The number a string of hexadecimal digits denotes. -/
def hexadecimal : List Byte → Nat
  | [] => 0
  | d :: ds => (hexDigit d).getD 0 * 16 ^ ds.length + hexadecimal ds

/-- The scale factor of a real number and the power of ten it stands for: nothing, or a letter `e`, perhaps a
sign, and digits. -/
inductive Scale : List Byte → Int → Prop where
  | none : Scale [] 0
  | plain (l : Byte) (ds : List Byte) : (l = 101#8 ∨ l = 69#8) → ds ≠ [] → (∀ d ∈ ds, Digit d) →
      Scale (l :: ds) (decimal ds)
  | plus (l : Byte) (ds : List Byte) : (l = 101#8 ∨ l = 69#8) → ds ≠ [] → (∀ d ∈ ds, Digit d) →
      Scale (l :: 43#8 :: ds) (decimal ds)
  | minus (l : Byte) (ds : List Byte) : (l = 101#8 ∨ l = 69#8) → ds ≠ [] → (∀ d ∈ ds, Digit d) →
      Scale (l :: 45#8 :: ds) (-(decimal ds : Int))

/-- A real number is written as this text and its value is `m * 10 ^ e`: digits with a decimal point in front
of, between or behind them and perhaps a scale factor, or digits and a scale factor. -/
inductive RealNumber : List Byte → (m : Nat) → (e : Int) → Prop where
  | point (ds fs sc : List Byte) (e : Int) : (∀ d ∈ ds, Digit d) → (∀ d ∈ fs, Digit d) → ds ++ fs ≠ [] → Scale sc e →
      RealNumber (ds ++ 46#8 :: (fs ++ sc)) (decimal (ds ++ fs)) (e - fs.length)
  | whole (ds sc : List Byte) (e : Int) : (∀ d ∈ ds, Digit d) → ds ≠ [] → Scale sc e → sc ≠ [] →
      RealNumber (ds ++ sc) (decimal ds) e

/-- White space. -/
def Blank (b : Byte) : Prop := b ∈ [9#8, 10#8, 11#8, 12#8, 13#8, 32#8]

/-- White space and comments, in which a comment has no end mark before its end. -/
inductive Layout : List Byte → Prop where
  | nil : Layout []
  | blank (b : Byte) {cs} : Blank b → Layout cs → Layout (b :: cs)
  | brace (body : List Byte) {cs} : 125#8 ∉ body → Layout cs →
      Layout (123#8 :: (body ++ 125#8 :: cs))
  | paren (body : List Byte) {cs} : ¬ [42#8, 41#8] <:+: body → Layout cs →
      Layout (40#8 :: 42#8 :: (body ++ 42#8 :: 41#8 :: cs))
  | slash (body : List Byte) {cs} : ¬ [42#8, 47#8] <:+: body → Layout cs →
      Layout (47#8 :: 42#8 :: (body ++ 42#8 :: 47#8 :: cs))

/-- The symbols made of special characters, and their token codes (`pascal/pas_tkndefs.h`). -/
def specialSymbols : List (List Byte × Nat) := [
  ([58#8, 61#8], 0x0a),
  ([46#8, 46#8], 0x0b),
  ([60#8, 62#8], 35), ([60#8, 61#8], 0x08), ([60#8, 60#8], 0xa1),
  ([62#8, 60#8], 0x0c), ([62#8, 61#8], 0x09), ([62#8, 62#8], 0xa2),
  ([43#8], 43), ([45#8], 45), ([42#8], 42), ([61#8], 61), ([44#8], 44), ([59#8], 59), ([41#8], 41),
  ([91#8], 91), ([93#8], 93), ([94#8], 94), ([64#8], 64)]

/-- The contents of the buffers `fgets` delivers for a file: at most 255 characters, ending after
the first newline. -/
def buffers (file : List Byte) : List (List Byte) := go [] file
where
  /-- With the part of the present buffer already read. -/
  go (cur : List Byte) : List Byte → List (List Byte)
    | [] => if cur = [] then [] else [cur]
    | b :: bs =>
      if b = 10#8 ∨ cur.length = 254 then (cur ++ [b]) :: go [] bs else go (cur ++ [b]) bs

/-- Reading one token from a state ends in another: with enough rounds of its loops, the result does
not depend on how many more are allowed.  `tab` is the symbol table, `first` the index of the first
symbol that may be found, `inWith` whether a `with` statement is being compiled. -/
def Scans (tab : List Entry) (first : Nat) (inWith : Bool) (s r : State) : Prop :=
  ∃ N, ∀ n, N ≤ n → getToken tab first inWith n s = .ok r

end Pas.Spec
