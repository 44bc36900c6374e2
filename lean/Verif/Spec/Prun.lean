import Verif.Model.Prun
import Verif.Spec.Startup
import Verif.Spec.Machine

/-! Specification of the command line of the run-time (property C86). -/
namespace Pas.Spec
open Pas.Prun

/-- `t` is a number written with digits, and `n` is its value. -/
def Number (t : List Byte) (n : Nat) : Prop :=
  t ≠ [] ∧ (∀ b ∈ t, 48 ≤ b.toNat ∧ b.toNat ≤ 57) ∧
    t.foldl (fun v b => 10 * v + (b.toNat - 48)) 0 = n

/-- `n` is what has been asked for with the option `k`: the argument of the last such option, or the
default if there is none. -/
def Asked (opts : List Opt) (k : List Byte → Opt) (dflt n : Nat) : Prop :=
  (∃ pre t post, opts = pre ++ k t :: post ∧ (∀ t', k t' ∉ post) ∧ Number t n) ∨
    ((∀ t, k t ∉ opts) ∧ n = dflt)

/-- An option as the usage text describes it, other than `-a` and `-h`: heap sizes are less than 32768,
stack sizes at least 1024; sizes are less than 65536. -/
inductive Proper : Opt → Prop where
  | new {t n} : Number t n → n < 32768 → Proper (.new t)
  | stack {t n} : Number t n → 1024 ≤ n → n < 65536 → Proper (.stack t)
  | string {t n} : Number t n → n < 65536 → Proper (.string t)
  | debug : Proper .debug

/-- An option that is to be refused. -/
inductive Wrong : Opt → Prop where
  | big {t n} : Number t n → 32768 ≤ n → n < 2 ^ 31 → Wrong (.new t)
  | negative {t n} : Number t n → 0 < n → n < 2 ^ 31 → Wrong (.new (45#8 :: t))
  | small {t n} : Number t n → n < 1024 → Wrong (.stack t)
  | negativeStack {t n} : Number t n → n < 2 ^ 31 → Wrong (.stack (45#8 :: t))
  | negativeString {t n} : Number t n → 0 < n → n < 2 ^ 31 → Wrong (.string (45#8 :: t))
  | help : Wrong .help
  | other : Wrong .other

/-- A size rounded up to a multiple of four. -/
def four (n : Nat) : Nat := (n + 3) / 4 * 4

/-- The machine has a string area, a stack and a heap of at least the sizes asked for, one after the other
with the constants between the first two, and hardly anything else. -/
structure Regions (str stk hp : Nat) (ro : List Byte) (s : VM) : Prop where
  strings : str ≤ s.rop.toNat
  constants : s.rop.toNat + ro.length ≤ s.fp.toNat
  readable : ∀ k (h : k < ro.length), byte s.mem (s.rop.toNat + k) = ro[k]
  stack : s.fp.toNat + stk ≤ s.hpb.toNat
  heap : s.hpb.toNat + hp ≤ 2 * s.words
  total : 2 * s.words ≤ str + ro.length + stk + hp + 8

end Pas.Spec
