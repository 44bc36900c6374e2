import Verif.Model.Opcodes

/-! What a configuration file says, and the header it stands for. -/
namespace Pas.MkConfig

/-- A blank within a line. -/
def Blanks (l : List Byte) : Prop := ∀ c ∈ l, c = 32#8 ∨ c = 9#8

/-- A letter, a digit or an underscore. -/
def NameChar (c : Byte) : Prop :=
  (48 ≤ c.toNat ∧ c.toNat ≤ 57) ∨ (65 ≤ c.toNat ∧ c.toNat ≤ 90) ∨ (97 ≤ c.toNat ∧ c.toNat ≤ 122) ∨ c = 95#8

/-- What is between quotes: a quote in it has a backslash before it, and there is no backslash at the end.  The first
argument is the character before. -/
inductive Body : Byte → List Byte → Prop where
  | nil {last} : last ≠ 92#8 → Body last []
  | char {last c cs} : (c = 34#8 → last = 92#8) → Body c cs → Body last (c :: cs)

/-- A value: characters that are neither white space nor quotes, and texts in quotes. -/
inductive Value : List Byte → Prop where
  | nil : Value []
  | char {c cs} : 32 < c.toNat → c ≠ 34#8 → Value cs → Value (c :: cs)
  | quoted {b cs} : Body 34#8 b → Value cs → Value (34#8 :: (b ++ 34#8 :: cs))

/-- A line of the file without its end: nothing or a comment, or a setting, perhaps without a value and perhaps with
something behind the value. -/
inductive Line : List Byte → Option (List Byte × Option (List Byte)) → Prop where
  | empty {a} : Blanks a → Line a none
  | comment {a t} : Blanks a → Line (a ++ 35#8 :: t) none
  | unset {a n b c} : Blanks a → n ≠ [] → (∀ x ∈ n, NameChar x) → Blanks b → Blanks c →
      Line (a ++ (n ++ (b ++ 61#8 :: c))) (some (n, none))
  | set {a n b c v t} : Blanks a → n ≠ [] → (∀ x ∈ n, NameChar x) → Blanks b → Blanks c → v ≠ [] → Value v →
      (t = [] ∨ t.head? = some 32#8 ∨ t.head? = some 9#8) →
      Line (a ++ (n ++ (b ++ 61#8 :: (c ++ (v ++ t))))) (some (n, some v))

/-- The characters of a text. -/
def text (s : String) : List Byte := s.toList.map fun c => BitVec.ofNat 8 c.toNat

/-- What a line stands for in the header: a variable that is set to `n` or to nothing is not defined, `y` is 1, `m` is
2, and any other value is itself. -/
def Defines : Option (List Byte × Option (List Byte)) → List Byte
  | none => []
  | some (n, none) => text "#undef " ++ n ++ text "\n"
  | some (n, some v) =>
    if v = text "n" then text "#undef " ++ n ++ text "\n"
    else text "#define " ++ n ++ text " " ++ (if v = text "y" then text "1" else if v = text "m" then text "2" else v) ++
      text "\n"

end Pas.MkConfig
