import Verif.Spec.Memory

/-! Specification of Pascal activations and static links (properties C06, C07). -/
namespace Pas.Spec

/-- A live activation: the main program, or a routine of lexical level `level` whose frame is
at `addr` and whose lexically enclosing activation is `encl`. -/
inductive Act where
  | main (addr : Word)
  | proc (level : Nat) (addr : Word) (encl : Act)

def Act.level : Act → Nat
  | .main _ => 0
  | .proc l _ _ => l

def Act.addr : Act → Word
  | .main a => a
  | .proc _ a _ => a

/-- The activation `d` lexical levels further out. -/
def Act.out : Nat → Act → Option Act
  | 0, a => some a
  | _ + 1, .main _ => none
  | d + 1, .proc _ _ e => e.out d

/-- The activation of level `l` among an activation and its lexical ancestors. -/
def Act.ancestor (l : Nat) : Act → Option Act
  | .main a => if l = 0 then some (.main a) else none
  | .proc n a e => if l = n then some (.proc n a e) else e.ancestor l

/-- The activation created when `cur` calls a routine of level `n`: its enclosing activation
is the one of level `n - 1` visible from `cur`; there is none if `n = 0` or `cur` is not
nested deeply enough. -/
def callee (n : Nat) (addr : Word) (cur : Act) : Option Act :=
  if n = 0 then none else (cur.ancestor (n - 1)).map (fun e => .proc n addr e)

/-- The five header words of each listed activation are the same in both memories. -/
def SameHeaders (m m' : Nat → Word) (stk : List Act) : Prop :=
  ∀ a ∈ stk, ∀ k < 5, m' (a.addr.toNat / 2 + k) = m (a.addr.toNat / 2 + k)

/-- A freshly started machine: a level-0 frame below the top of stack. -/
structure Fresh (s : VM) : Prop where
  level : s.mem (s.fp.toNat / 2 + 4) = 0#16
  below : s.fp.toNat / 2 + 4 ≤ s.sp.toNat / 2
  inMem : s.fp.toNat / 2 + 4 < s.words

end Pas.Spec
