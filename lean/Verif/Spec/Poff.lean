import Verif.Model.Poff
/-! Specification side of the object-file library: what it means for a table index to
denote a string, big-endian byte sequences, and which line entry an address belongs to. -/
namespace Pas.Spec
open Pas.Poff

/-- A C string: no byte is zero. -/
def IsCStr (s : List Byte) : Prop := 0#8 ∉ s

/-- The bytes of `t` starting at `i` are the string `s` and its terminator. -/
def Denotes (t : List Byte) (i : Nat) (s : List Byte) : Prop :=
  ∃ pre post, t = pre ++ (s ++ 0#8 :: post) ∧ pre.length = i

/-- Most significant byte first. -/
def be16 (v : Word) : List Byte := [(v >>> 8).truncate 8, v.truncate 8]

/-- Most significant byte first. -/
def be32 (v : U32) : List Byte :=
  [(v >>> 24).truncate 8, (v >>> 16).truncate 8, (v >>> 8).truncate 8, v.truncate 8]

/-- The line table is sorted by address. -/
def SortedLines (t : List LineEntry) : Prop :=
  ∀ (i j : Nat) (a b : LineEntry), i < j → t[i]? = some a → t[j]? = some b →
    a.offset ≤ b.offset

/-- The line table is sorted by address and no address is used twice. -/
def StrictLines (t : List LineEntry) : Prop :=
  ∀ (i j : Nat) (a b : LineEntry), i < j → t[i]? = some a → t[j]? = some b →
    a.offset < b.offset

/-- A history of lookups in a table: results and final hint. -/
def lookups (t : List LineEntry) : Nat → List Nat → Res (List (Option LineEntry) × Nat)
  | prev, [] => .ok ([], prev)
  | prev, o :: os => do
    let r ← findLine t prev o
    let q ← lookups t r.2 os
    .ok (r.1 :: q.1, q.2)

/-- `e` is the entry an address belongs to: it is in the table, does not lie behind the
address, and every entry not behind the address lies at or before it. -/
def LineFor (t : List LineEntry) (offset : Nat) (e : LineEntry) : Prop :=
  e ∈ t ∧ e.offset ≤ offset ∧ ∀ f ∈ t, f.offset ≤ offset → f.offset ≤ e.offset

end Pas.Spec

namespace Pas.Spec
open Pas.Poff

/-- A history of additions to a string table: the indices handed out and the final
table. -/
def addAll : Option (List Byte) → List (Option (List Byte)) →
    Res (List Nat × Option (List Byte))
  | tab, [] => .ok ([], tab)
  | tab, s :: ss => do
    let r ← addString tab s
    let q ← addAll (some r.2) ss
    .ok (r.1 :: q.1, q.2)

/-- What a caller's pointer stands for: NULL counts as the empty string. -/
def textOf (s : Option (List Byte)) : List Byte := s.getD []

end Pas.Spec

namespace Pas.Spec
open Pas.Poff

/-- Storing records one after the other. -/
def addDebugs : DebugTab → List DebugFunc → Res DebugTab
  | t, [] => .ok t
  | t, r :: rs => do
    let t ← addDebug t r
    addDebugs t rs

end Pas.Spec
