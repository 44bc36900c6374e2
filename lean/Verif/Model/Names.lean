import Verif.Model.Opcodes
/-! Names: comparison without case, reserved words, aliases and the symbol table of the compiler,
`pascal/pas_symtable.c`. -/
namespace Pas.Names

/-- `tolower` in the C locale.  Part of `strcasecmp` in `pascal/pas_symtable.c` 257. -/
def lower (b : Byte) : Byte := if 65#8 ≤ b ∧ b ≤ 90#8 then b + 32#8 else b

/-- `strcasecmp`: its sign.  (Names contain no NUL.)  Used in `pascal/pas_symtable.c` 257, 291, 324. -/
def strcasecmp : List Byte → List Byte → Ordering
  | [], [] => .eq
  | [], _ :: _ => .lt
  | _ :: _, [] => .gt
  | a :: as, b :: bs =>
    if lower a < lower b then .lt else if lower b < lower a then .gt else strcasecmp as bs

/-- `reservedWord_t`, `pascal/pas_defns.h:122-129`. -/
structure RWord where
  name : List Byte
  type : Nat
  sub : Nat
deriving DecidableEq, Repr

/-- `g_rsw`, `pascal/pas_symtable.c:107-221`, with the codes of `pascal/pas_tkndefs.h`. -/
def reserved : List RWord := [
  ⟨[65, 66, 83], 0xc0, 0x01⟩,
  ⟨[65, 68, 68, 82], 0xc0, 0x02⟩,
  ⟨[65, 78, 68], 0x80, 0x00⟩,
  ⟨[65, 80, 80, 69, 78, 68], 0xc1, 0x89⟩,
  ⟨[65, 82, 67, 84, 65, 78], 0xc0, 0x03⟩,
  ⟨[65, 82, 82, 65, 89], 0x81, 0x00⟩,
  ⟨[65, 83, 83, 73, 71, 78, 70, 73, 76, 69], 0xc1, 0x8a⟩,
  ⟨[66, 69, 71, 73, 78], 0x82, 0x00⟩,
  ⟨[66, 82, 69, 65, 75], 0xc1, 0x9c⟩,
  ⟨[67, 65, 82, 68], 0xc0, 0x9a⟩,
  ⟨[67, 65, 83, 69], 0x83, 0x00⟩,
  ⟨[67, 72, 65, 82, 65, 84], 0xc0, 0x9d⟩,
  ⟨[67, 72, 68, 73, 82], 0xc1, 0x9e⟩,
  ⟨[67, 72, 82], 0xc0, 0x04⟩,
  ⟨[67, 76, 79, 83, 69, 68, 73, 82], 0xc0, 0x9f⟩,
  ⟨[67, 76, 79, 83, 69, 70, 73, 76, 69], 0xc1, 0x8b⟩,
  ⟨[67, 79, 78, 67, 65, 84], 0xc0, 0xb3⟩,
  ⟨[67, 79, 78, 83, 84], 0x84, 0x00⟩,
  ⟨[67, 79, 78, 84, 73, 78, 85, 69], 0xc1, 0xa0⟩,
  ⟨[67, 79, 80, 89], 0xc0, 0xa1⟩,
  ⟨[67, 79, 83], 0xc0, 0x05⟩,
  ⟨[67, 82, 69, 65, 84, 69, 68, 73, 82], 0xc0, 0xa2⟩,
  ⟨[68, 69, 76, 69, 84, 69], 0xc1, 0xb5⟩,
  ⟨[68, 73, 83, 80, 79, 83, 69], 0xc1, 0x80⟩,
  ⟨[68, 73, 86], 0x85, 0x00⟩,
  ⟨[68, 79], 0x86, 0x00⟩,
  ⟨[68, 79, 87, 78, 84, 79], 0x87, 0x00⟩,
  ⟨[69, 76, 83, 69], 0x88, 0x00⟩,
  ⟨[69, 78, 68], 0x89, 0x00⟩,
  ⟨[69, 79, 70], 0xc0, 0x8e⟩,
  ⟨[69, 79, 76, 78], 0xc0, 0x06⟩,
  ⟨[69, 88, 67, 76, 85, 68, 69], 0xc0, 0x99⟩,
  ⟨[69, 88, 73, 84], 0xc1, 0x81⟩,
  ⟨[69, 88, 80], 0xc0, 0x07⟩,
  ⟨[70, 73, 76, 69], 0x8a, 0x00⟩,
  ⟨[70, 73, 76, 69, 73, 78, 70, 79], 0xc0, 0xa3⟩,
  ⟨[70, 73, 76, 69, 80, 79, 83], 0xc0, 0x8c⟩,
  ⟨[70, 73, 76, 69, 83, 73, 90, 69], 0xc0, 0x8d⟩,
  ⟨[70, 73, 76, 76, 67, 72, 65, 82], 0xc1, 0xa4⟩,
  ⟨[70, 73, 78, 65, 76, 73, 90, 65, 84, 73, 79, 78], 0x8b, 0x00⟩,
  ⟨[70, 76, 85, 83, 72], 0xc1, 0xa5⟩,
  ⟨[70, 79, 82], 0x8c, 0x00⟩,
  ⟨[70, 85, 78, 67, 84, 73, 79, 78], 0x8d, 0x00⟩,
  ⟨[71, 69, 84], 0xc1, 0x82⟩,
  ⟨[71, 69, 84, 68, 73, 82], 0xc0, 0xa6⟩,
  ⟨[71, 69, 84, 69, 78, 86], 0xc0, 0x20⟩,
  ⟨[71, 79, 84, 79], 0x8e, 0x00⟩,
  ⟨[72, 65, 76, 84], 0xc1, 0x83⟩,
  ⟨[73, 70], 0x8f, 0x00⟩,
  ⟨[73, 77, 80, 76, 69, 77, 69, 78, 84, 65, 84, 73, 79, 78], 0x90, 0x00⟩,
  ⟨[73, 78], 0x91, 0x00⟩,
  ⟨[73, 78, 67, 76, 85, 68, 69], 0xc0, 0x98⟩,
  ⟨[73, 78, 73, 84, 73, 65, 76, 73, 90, 65, 84, 73, 79, 78], 0x92, 0x00⟩,
  ⟨[73, 78, 83, 69, 82, 84], 0xc1, 0xb4⟩,
  ⟨[73, 78, 84, 69, 82, 70, 65, 67, 69], 0x93, 0x00⟩,
  ⟨[76, 65, 66, 69, 76], 0x94, 0x00⟩,
  ⟨[76, 69, 78, 71, 84, 72], 0xc0, 0xa7⟩,
  ⟨[76, 78], 0xc0, 0x08⟩,
  ⟨[77, 75, 68, 73, 82], 0xc1, 0xa8⟩,
  ⟨[77, 79, 68], 0x95, 0x00⟩,
  ⟨[78, 69, 87], 0xc1, 0x84⟩,
  ⟨[78, 79, 84], 0x97, 0x00⟩,
  ⟨[79, 68, 68], 0xc0, 0x09⟩,
  ⟨[79, 70], 0x98, 0x00⟩,
  ⟨[79, 80, 69, 78, 68, 73, 82], 0xc0, 0xa9⟩,
  ⟨[79, 82], 0x99, 0x00⟩,
  ⟨[79, 82, 68], 0xc0, 0x0a⟩,
  ⟨[80, 65, 67, 75], 0xc1, 0x85⟩,
  ⟨[80, 65, 67, 75, 69, 68], 0x9b, 0x00⟩,
  ⟨[80, 65, 71, 69], 0xc1, 0x86⟩,
  ⟨[80, 79, 83], 0xc0, 0xaa⟩,
  ⟨[80, 82, 69, 68], 0xc0, 0x0b⟩,
  ⟨[80, 82, 79, 67, 69, 68, 85, 82, 69], 0x9c, 0x00⟩,
  ⟨[80, 82, 79, 71, 82, 65, 77], 0x9d, 0x00⟩,
  ⟨[80, 85, 84], 0xc1, 0x87⟩,
  ⟨[82, 69, 65, 68], 0xc1, 0x8f⟩,
  ⟨[82, 69, 65, 68, 68, 73, 82], 0xc0, 0xab⟩,
  ⟨[82, 69, 65, 68, 76, 78], 0xc1, 0x90⟩,
  ⟨[82, 69, 67, 79, 82, 68], 0x9e, 0x00⟩,
  ⟨[82, 69, 77, 79, 86, 69, 68, 73, 82], 0xc0, 0xac⟩,
  ⟨[82, 69, 80, 69, 65, 84], 0x9f, 0x00⟩,
  ⟨[82, 69, 83, 69, 84], 0xc1, 0x91⟩,
  ⟨[82, 69, 87, 73, 78, 68, 68, 73, 82], 0xc0, 0xad⟩,
  ⟨[82, 69, 87, 82, 73, 84, 69], 0xc1, 0x92⟩,
  ⟨[82, 77, 68, 73, 82], 0xc1, 0xae⟩,
  ⟨[82, 79, 85, 78, 68], 0xc0, 0x0c⟩,
  ⟨[83, 69, 69, 75], 0xc1, 0x93⟩,
  ⟨[83, 69, 69, 75, 69, 79, 70], 0xc0, 0x94⟩,
  ⟨[83, 69, 69, 75, 69, 79, 76, 78], 0xc0, 0x95⟩,
  ⟨[83, 69, 84], 0xa0, 0x00⟩,
  ⟨[83, 69, 84, 67, 85, 82, 82, 69, 78, 84, 68, 73, 82], 0xc0, 0xb0⟩,
  ⟨[83, 72, 76], 0xa1, 0x00⟩,
  ⟨[83, 72, 82], 0xa2, 0x00⟩,
  ⟨[83, 73, 78], 0xc0, 0x0d⟩,
  ⟨[83, 73, 90, 69, 79, 70], 0xc0, 0x9b⟩,
  ⟨[83, 80, 65, 87, 78], 0xc0, 0xb1⟩,
  ⟨[83, 81, 82], 0xc0, 0x0e⟩,
  ⟨[83, 81, 82, 84], 0xc0, 0x0f⟩,
  ⟨[83, 84, 82], 0xc1, 0xb2⟩,
  ⟨[83, 85, 67, 67], 0xc0, 0x10⟩,
  ⟨[84, 72, 69, 78], 0xa3, 0x00⟩,
  ⟨[84, 79], 0xa4, 0x00⟩,
  ⟨[84, 82, 85, 78, 67], 0xc0, 0x11⟩,
  ⟨[84, 89, 80, 69], 0xa5, 0x00⟩,
  ⟨[85, 78, 73, 84], 0xa6, 0x00⟩,
  ⟨[85, 78, 80, 65, 67, 75], 0xc1, 0x88⟩,
  ⟨[85, 78, 84, 73, 76], 0xa7, 0x00⟩,
  ⟨[85, 83, 69, 83], 0xa8, 0x00⟩,
  ⟨[86, 65, 76], 0xc1, 0xaf⟩,
  ⟨[86, 65, 82], 0xa9, 0x00⟩,
  ⟨[87, 72, 73, 76, 69], 0xb0, 0x00⟩,
  ⟨[87, 73, 84, 72], 0xb1, 0x00⟩,
  ⟨[87, 82, 73, 84, 69], 0xc1, 0x96⟩,
  ⟨[87, 82, 73, 84, 69, 76, 78], 0xc1, 0x97⟩,
  ⟨[88, 79, 82], 0x9a, 0x00⟩]

/-- `g_aliasTable`, `pascal/pas_symtable.c:234-240`. -/
def aliases : List (List Byte × List Byte) := [
  ([65, 83, 83, 73, 71, 78], [65, 83, 83, 73, 71, 78, 70, 73, 76, 69]),
  ([67, 76, 79, 83, 69], [67, 76, 79, 83, 69, 70, 73, 76, 69]),
  ([71, 69, 84, 67, 85, 82, 82, 69, 78, 84, 68, 73, 82], [71, 69, 84, 68, 73, 82]),
  ([73, 78, 84, 54, 52], [76, 79, 78, 71, 73, 78, 84, 69, 71, 69, 82]),
  ([76, 79, 78, 71, 73, 78, 84], [76, 79, 78, 71, 73, 78, 84, 69, 71, 69, 82]),
  ([83, 72, 79, 82, 84, 73, 78, 84], [83, 72, 79, 82, 84, 73, 78, 84, 69, 71, 69, 82]),
  ([84, 69, 88, 84], [84, 69, 88, 84, 70, 73, 76, 69])]

/-- `pas_MapToAlias`, `pascal/pas_symtable.c:246-276`. -/
def mapToAlias (name : List Byte) : List Byte := go aliases
where
  /-- The loop over the rest of the table. -/
  go : List (List Byte × List Byte) → List Byte
    | [] => name
    | (alt, rsw) :: l =>
      match strcasecmp alt name with
      | .eq => rsw
      | .gt => name
      | .lt => go l

/-- `pas_FindReservedWord`, `pascal/pas_symtable.c:280-310`. -/
def findReserved (name : List Byte) : Option RWord := go reserved
where
  /-- The loop over the rest of the table. -/
  go : List RWord → Option RWord
    | [] => none
    | w :: l =>
      match strcasecmp w.name name with
      | .eq => some w
      | .gt => none
      | .lt => go l

/-- A declared name: the name, and what the tokenizer uses of a symbol table entry (`symbol_t`,
`pascal/pas_defns.h:223-241`): its kind and, for constants, its value. -/
structure Decl where
  name : List Byte
  kind : Nat
  value : BitVec 32
deriving DecidableEq, Repr

/-- A symbol table entry; its name is NULL when a formal parameter has gone out of scope.  Names are
pointers into the string stack in the code; here they are copies.  `pascal/pas_defns.h` 223-241. -/
structure Entry where
  name : Option (List Byte)
  kind : Nat
  value : BitVec 32
deriving DecidableEq, Repr

/-- `pas_FindNextSymbol`, `pascal/pas_symtable.c:314-339`, and the index found. -/
def findNext (tab : List Entry) (name : List Byte) (offset : Nat) : Nat → Option (Nat × Entry)
  | 0 => none
  | index + 1 =>
    if index < offset then none
    else
      match tab[index]? with
      | some e =>
        match e.name with
        | some n => if strcasecmp n name = .eq then some (index, e) else findNext tab name offset index
        | none => findNext tab name offset index
      | none => findNext tab name offset index

/-- `pas_FindSymbol`, `pascal/pas_symtable.c:343-347`. -/
def findSymbol (tab : List Entry) (name : List Byte) (offset : Nat) : Option (Nat × Entry) :=
  findNext tab name offset tab.length

/-- `sRECORD_OBJECT`, `pascal/pas_tkndefs.h:103`. -/
def recordObject : Nat := 0x59

/-- The loop of `pas_SymbolToken`, `pascal/pas_token.c:109-143`: skip record objects unless they are
looked for, and everything else when they are.  The fuel is the index of the last symbol looked at. -/
def symbolLoop (tab : List Entry) (name : List Byte) (start : Nat) (findRec : Bool) :
    Nat → Nat → Option Entry
  | 0, _ => none
  | fuel + 1, last =>
    match findNext tab name start last with
    | none => none
    | some (i, e) =>
      if (findRec && e.kind == recordObject) || (!findRec && !(e.kind == recordObject)) then some e
      else symbolLoop tab name start findRec fuel i

/-- `pas_SymbolToken`, `pascal/pas_token.c:102-147`: the symbol found. -/
def symbolToken (tab : List Entry) (name : List Byte) (start : Nat) (findRec : Bool) :
    Option Entry :=
  symbolLoop tab name start findRec (tab.length + 1) tab.length

/-- The symbol part of `pas_Identifier`, `pascal/pas_token.c:189-211`. -/
def identSymbol (tab : List Entry) (name : List Byte) (start : Nat) (recExpected : Bool) :
    Option Entry :=
  match symbolToken tab name start recExpected with
  | some e => some e
  | none => if recExpected then symbolToken tab name start false else none

/-- `pas_AddSymbol`, `pascal/pas_symtable.c:351-377`; `none`: the table is full, a fatal error
(`MAX_SYM`, `pascal/pas_defns.h:59`).  The table is the list of its entries in use. -/
def addSymbol (tab : List Entry) (d : Decl) : Option (List Entry) :=
  if tab.length ≥ 4096 then none else some (tab ++ [⟨some d.name, d.kind, d.value⟩])

/-- Declare the formal parameters of a procedure, one entry each after the entry of the procedure
(`pas_FormalParameterList`), and the result variable of a function
(`pascal/pas_block.c:717-725`). -/
def addAll (tab : List Entry) : List Decl → Option (List Entry)
  | [] => some tab
  | e :: es => do addAll (← addSymbol tab e) es

/-- A procedure being compiled: index of its entry, number of parameters, number of symbols when
its block was entered, level offset outside (`pascal/pas_block.c:572`, `582`, `626`, `2983`). -/
structure Open where
  proc : Nat
  nparms : Nat
  nsym : Nat
  outer : Nat

/-- The compiler's symbol table, the index of the first symbol of the present block
(`g_levelSymOffset`, `pascal/pas_token.c:93`) and the procedures being compiled. -/
structure Scopes where
  tab : List Entry
  level : Nat
  opened : List Open

/-- Events of a compilation that concern names.  The calls of `pascal/pas_block.c` 541-848 and 2955-3098. -/
inductive Event where
  /-- a declaration of a constant, type, variable, label, file -/
  | declare (d : Decl)
  /-- the heading of a procedure or function with its parameters, then the start of its block; for
  a function the result variable, which has the function's name, comes last -/
  | enter (proc : Decl) (params : List Decl)
  /-- the end of the block -/
  | leave

/-- Forget the names of the parameters, `pascal/pas_block.c:626-631`, `778-783`. -/
def clearNames (tab : List Entry) (first n : Nat) : List Entry :=
  tab.mapIdx fun i e => if first ≤ i ∧ i < first + n then ⟨none, e.kind, e.value⟩ else e

/-- `pas_ProcedureDeclaration`, `pas_FunctionDeclaration` and `pas_Block`,
`pascal/pas_block.c:541-650`, `655-810`, `2955-3098`, seen as events; `none`: a fatal error, or the
end of a block that was not entered.  Headings in error are not modelled. -/
def step (s : Scopes) : Event → Option Scopes
  | .declare d => do some ⟨← addSymbol s.tab d, s.level, s.opened⟩
  | .enter p ps => do
    let t ← addSymbol s.tab p
    let t ← addAll t ps
    some ⟨t, t.length, ⟨s.tab.length, ps.length, t.length, s.level⟩ :: s.opened⟩
  | .leave =>
    match s.opened with
    | [] => none
    | o :: os => some ⟨clearNames (s.tab.take o.nsym) (o.proc + 1) o.nparms, o.outer, os⟩

/-- A history of events.  As `pascal/pas_block.c` 541-848 and 2955-3098 produce it. -/
def steps (s : Scopes) : List Event → Option Scopes
  | [] => some s
  | e :: es => do steps (← step s e) es

/-- The table when the program's block is entered, with the predefined names
(`pas_PrimeSymbolTable`, `pascal/pas_symtable.c:609-735`; the names themselves are a parameter). -/
def start (predefined : List Decl) : Scopes :=
  ⟨predefined.map fun d => ⟨some d.name, d.kind, d.value⟩, predefined.length, []⟩

end Pas.Names
