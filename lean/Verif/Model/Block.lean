import Verif.Model.Compile
import Verif.Model.ConstExpr
import Verif.Model.Names
import Verif.Model.Res

/-! Programs: the program heading, the definition of constants, the declaration of variables of the ordinal types and arrays of them, and of procedures,
and the block, `pascal/pas_program.c` and `pascal/pas_block.c`, with the initializers of
`pas_initializer.c`.

The result `none` means that a part of the language is reached that is not modelled: label and type
definitions, constants that are not integers, characters or Booleans, what follows an error in the definition
of a constant, functions, variable parameters, USES, files other than INPUT and OUTPUT, new
types, reals, strings and initial values.  `ub` is an access through a null pointer or the use of a
pointer that has not been set. -/
namespace Pas.Comp
open Pas.Names (strcasecmp mapToAlias)

/-- What the tokenizer reads: names that are not reserved words, and everything else.  What a name
means depends on the symbol table.  `pascal/pas_token.c` 827-1084. -/
inductive Lx where
  | name (n : List Byte)
  | var_
  | tk (t : Tk)
  deriving DecidableEq, Repr

/-- Symbol table entries (`symbol_t`, `pas_defns.h` 223-241): constants with the token `getToken`
makes of them, types with their kind and size (`none`: not an ordinal type), files, variables, arrays and
procedures (with the kinds of their parameters, which are in the symbols behind it in the code). -/
inductive Sym where
  | const (t : Tk)
  | type (k : Option Kind) (size : Nat)
  | file (off : Nat)
  | var (v : Var)
  | arr (a : ArrSym)
  | proc (q : ProcSym)
  deriving DecidableEq, Repr

/-- `pas_PrimeSymbolTable`, `pas_symtable.c` 609-735. -/
def primed : List (List Byte × Sym) := [
  ([84, 82, 85, 69], .const (.bool 0xffffffff#32)),
  ([70, 65, 76, 83, 69], .const (.bool 0#32)),
  ([77, 65, 88, 73, 78, 84], .const (.int 32767#32)),
  ([78, 73, 76], .const (.other 0x96)),
  ([73, 78, 84, 69, 71, 69, 82], .type (some .int) 2),
  ([87, 79, 82, 68], .type (some .word) 2),
  ([83, 72, 79, 82, 84, 73, 78, 84, 69, 71, 69, 82], .type (some .shortInt) 1),
  ([83, 72, 79, 82, 84, 87, 79, 82, 68], .type (some .shortWord) 1),
  ([76, 79, 78, 71, 73, 78, 84, 69, 71, 69, 82], .type (some .longInt) 4),
  ([76, 79, 78, 71, 87, 79, 82, 68], .type (some .longWord) 4),
  ([66, 79, 79, 76, 69, 65, 78], .type (some .bool) 2),
  ([82, 69, 65, 76], .type none 8),
  ([67, 72, 65, 82], .type (some .char) 1),
  ([84, 69, 88, 84, 70, 73, 76, 69], .type none 1),
  ([83, 84, 82, 73, 78, 71], .type none 6),
  ([73, 78, 80, 85, 84], .file 0),
  ([79, 85, 84, 80, 85, 84], .file 2)]

/-- `pas_FindSymbol`, `pas_symtable.c` 314-347: the last symbol with the name, upper and lower case
being the same, that is not before `start`. -/
def find (tab : List (List Byte × Sym)) (name : List Byte) (start : Nat) : Option Sym :=
  ((tab.drop start).reverse.find? fun e => strcasecmp e.1 name = .eq).map (·.2)

/-- `sTYPE`, `pas_tkndefs.h` 82. -/
def sTYPE : Tk := .other 0x44

/-- The token is `sTEXTFILE`, `pas_tkndefs.h` 84. -/
def isFile : Tk → Bool
  | .file _ => true
  | _ => false

/-- `g_token` for a symbol, `pas_SymbolToken`, `pas_token.c` 102-154. -/
def Sym.tok : Sym → Tk
  | .const t => t
  | .type _ _ => sTYPE
  | .file off => .file off
  | .var v => .var v
  | .arr a => .arr a
  | .proc q => .proc q

/-- `g_token` for what is read, `pas_token.c` 158-225: `tIDENT` for a name without meaning. -/
def Lx.tok (tab : List (List Byte × Sym)) (start : Nat) : Lx → Tk
  | .name n => match find tab (mapToAlias n) start with
    | some s => s.tok
    | none => .ident
  | .var_ => .other 0xa9
  | .tk t => t

/-- `g_tknPtr` for what is read.  `pascal/pas_token.c` 152, `pascal/pas_main.h` 78. -/
def Lx.ptr (tab : List (List Byte × Sym)) (start : Nat) : Lx → Option Sym
  | .name n => find tab (mapToAlias n) start
  | _ => none

/-- The state of the compiler while it reads declarations: what has not been read, `g_token` and
`g_tknPtr` of the last token read, the token itself (for `g_tokenString`), the symbol table,
`g_dStack` and the number of errors.  `pascal/pas_main.h` 74-101, `pascal/pas_token.c` 88. -/
structure DS where
  rest : List Lx
  tok : Tk
  ptr : Option Sym
  last : Lx
  tab : List (List Byte × Sym)
  dstack : Nat
  errs : Nat

/-- `getToken()` (with `start` 0) and `getLevelToken()` (with `start` = `g_levelSymOffset`),
`pas_token.c` 827-1095; after the last token the period is seen for ever. -/
def DS.get (d : DS) (start : Nat) : DS :=
  let l := d.rest.headD (.tk .period)
  { d with
    rest := d.rest.tail
    tok := l.tok d.tab start
    ptr := l.ptr d.tab start
    last := l }

/-- `error(...)`.  `pascal/pas_error.c` 178-195. -/
def DS.err (d : DS) : DS := { d with errs := d.errs + 1 }

/-- `if (g_token != t) error(...); else getToken();`.  As in `pascal/pas_program.c` 77-138. -/
def DS.expect (d : DS) (t : Tk) : DS := if d.tok = t then d.get 0 else d.err

/-- `g_tokenString`.  `pascal/pas_token.c` 88. -/
def Lx.string : Lx → List Byte
  | .name n => n
  | _ => []

/-- `INT_ALIGNUP`, `include/pas_machine.h` 74. -/
def alignUp (n : Nat) : Nat := (n + 1) / 2 * 2

/-- A type as far as a declaration of variables needs it: the kind and the size, and for arrays (then the kind
is that of the elements, the size that of the whole) the indices as in `ArrSym`.
`pascal/pas_defns.h` 133-145. -/
structure Denoted where
  kind : Kind
  size : Nat
  dims : Option (List (Nat × Nat)) := none
  deriving DecidableEq, Repr

/-- The symbol of a variable of the type.  `pas_AddVariable`, `pas_symtable.c` 535-555. -/
def Denoted.sym (t : Denoted) (lev : Nat) (off : Int) : Sym :=
  match t.dims with
  | none => .var ⟨t.kind, lev, off⟩
  | some dims => .arr ⟨t.kind, lev, off, dims⟩

/-- The end of `pas_DeclareVar`, `pas_block.c` 440-530, for a type that is not a file, a string or a
record, at the level `lev` of a program: the variable is aligned unless it has one byte
(`pas_IntAlignRequired`, 2902-2930; the test for arrays there looks at `sKind`, which is `sTYPE`) and added to
the symbol table (`pas_AddVariable`, `pas_symtable.c` 535-555, with a 16-bit offset; `pas_AddSymbol` 351-377
sets the level).  Arrays of ordinal types need no initializers (`pas_AddArrayInitializers` 2808-2835). -/
def allocate (lev : Nat) (name : List Byte) (t : Denoted) (d : DS) : DS :=
  let off := if t.size = 1 then d.dstack else alignUp d.dstack
  { d with
    tab := d.tab ++ [(name, t.sym lev (off % 65536 : Nat))]
    dstack := off + t.size }

/-- `pas_GetArrayIndexType`, `pas_block.c` 1675-1838, for ranges of integer constants; type identifiers and
constants beyond 2147483647 are not modelled.  Returned are the bounds, if there are any. -/
def indexType (d : DS) : Option (Option (Nat × Nat) × DS) :=
  match d.tok with
  | .int lo =>
    let d := d.get 0
    if d.tok = .other 0x0b then
      let d := d.get 0
      match d.tok with
      | .int hi =>
        if 2147483648 ≤ hi.toNat then none
        else if hi.toNat < lo.toNat then some (none, d.err)
        else some (some (lo.toNat, hi.toNat), d.get 0)
      | _ => some (none, d.err)
    else some (none, d.err)
  | .lparen => some (none, d.err.get 0)
  | _ => none

/-- The loop over the index types of `pas_NewComplexType`, `pas_block.c` 1420-1466.  The index types are
added to the symbol table without a name, here they are not: they are never found there. -/
def indexTypes : Nat → DS → Option (List (Nat × Nat) × DS)
  | 0, _ => none
  | n + 1, d => do
    let (i, d) ← indexType (d.get 0)
    let (l, d) ← if d.tok = .comma then indexTypes n d else some ([], d)
    some (i.toList ++ l, d)

/-- The loop of `pas_GetArrayBaseType`, `pas_block.c` 1870-1888: the lowest index and the unit of each index,
and the size of the array (`indexRange` has 16 bits, `indexUnit` 32). -/
def indexUnits : Nat → List (Nat × Nat) → List (Nat × Nat) × Nat
  | unit, [] => ([], unit)
  | unit, (lo, hi) :: l =>
    let r := indexUnits (unit * ((hi - lo + 1) % 65536) % 4294967296) l
    ((lo, unit) :: r.1, r.2)

/-- `case tARRAY` of `pas_NewComplexType`, `pas_block.c` 1395-1478, with `pas_GetArrayBaseType` 1840-1893.
Elements of other than ordinal types given by their names are not modelled, nor arrays without any correct
index type (then an error has been reported). -/
def arrayType (n : Nat) (d : DS) : Option (Denoted × DS) := do
  let d := d.get 0
  let (l, d) ← indexTypes n (if d.tok = .lbracket then d else d.err)
  let d := (d.expect .rbracket).expect .of_
  if l = [] then none
  else match d.ptr with
    | some (.type (some k) size) => some (⟨k, (indexUnits size l).2, some (indexUnits size l).1⟩, d.get 0)
    | _ => none

/-- The type denoter of a variable declaration, `pas_block.c` 380-405: a type identifier
(`pas_TypeIdentifier` 814-848) or an array type (0x81 is `tARRAY`); `=` begins an initial value.  With
anything that does not start a type `pas_TypeDenoter` 909-955
reports an error and then uses a null pointer; which tokens start the types that are not modelled:
`pas_NewSimpleType` 960-1186, `pas_NewComplexType` 1312-1640. -/
def typeDenoter (n : Nat) (d : DS) : Res (Option (Denoted × DS)) :=
  match d.ptr with
  | some (.type (some k) size) =>
    let d := d.get 0
    if d.tok = .eq then .ok none else .ok (some (⟨k, size, none⟩, d))
  | some _ => .ok none
  | none => match d.tok with
    | .other c =>
      if c = 0x81 then .ok (match arrayType n d with
        | some (t, d) => if d.tok = .eq then none else some (t, d)
        | none => none)
      else .ok none
    | .lparen | .int _ | .minus | .plus | .char _ | .str _ => .ok none
    | _ => .ub

/-- `pas_DeclareVar`, `pas_block.c` 340-535; `lev` is `g_level` and `level` is `g_levelSymOffset`.
Returned is the type, if there is one.  The fuel bounds the number of names. -/
def declareVar (lev level : Nat) : Nat → DS → Res (Option (Option Denoted × DS))
  | 0, _ => .ok none
  | n + 1, d =>
    let name := d.last.string
    let d := d.get 0
    if d.tok = .comma then
      let d := d.get level
      if d.tok = .ident then do
        match ← declareVar lev level n d with
        | some (some t, d) => .ok (some (some t, allocate lev name t d))
        | some (none, d) => .ok (some (none, d))
        | none => .ok none
      else .ok (some (none, d.err))
    else do
      match ← typeDenoter n (d.expect .colon) with
      | some (t, d) => .ok (some (some t, allocate lev name t d))
      | none => .ok none

/-- `pas_VariableDeclarationGroup`, `pas_block.c` 3345-3370. -/
def variableGroup (lev level : Nat) : Nat → DS → Res (Option DS)
  | 0, _ => .ok none
  | n + 1, d =>
    if d.tok = .ident then do
      match ← declareVar lev level n d with
      | some (_, d) => if d.tok = .semi then variableGroup lev level n (d.get 0) else .ok (some d)
      | none => .ok none
    else .ok (some d)

/-! ### Constants -/

/-- The token that has been read and those that follow, where nothing is declared any more, so that what the
names mean does not change.  `pascal/pas_token.c` 102-154. -/
def DS.body (d : DS) : List Tk := d.tok :: d.rest.map (Lx.tok d.tab 0)

/-- The state of the reader when `k` tokens are left, the first of them being the last one read.
`pascal/pas_token.c` 827-1040. -/
def DS.left (d : DS) (k : Nat) : DS :=
  let l := (d.last :: d.rest).drop (d.rest.length + 1 - k)
  let x := l.headD (.tk .period)
  { d with
    rest := l.tail
    tok := x.tok d.tab 0
    ptr := x.ptr d.tab 0
    last := x }

/-- `pas_DeclareConst`, `pas_block.c` 199-247, with `pas_AddConstant`, `pas_symtable.c` 410-436: the constant
is found by its name afterwards, also in the definitions that follow. -/
def defineConst (n : Nat) (d : DS) : Res (Option DS) :=
  match Const.declareConst n ⟨d.body, 0, false, .none_, 0#32, [0#16, 0#16, 0#16, 0#16]⟩ with
  | some (some (k, v), s) =>
    if s.ub = true then .ub
    else if s.errs ≠ 0 then .ok none
    else match Const.constToken k v with
      | some t => .ok (some { d.left s.toks.length with tab := d.tab ++ [(d.last.string, .const t)] })
      | none => .ok none
  | some (none, s) => if s.ub = true then .ub else .ok none
  | none => .ok none

/-- `pas_ConstantDefinitionGroup`, `pas_block.c` 3269-3291. -/
def constantGroup : Nat → DS → Res (Option DS)
  | 0, _ => .ok none
  | n + 1, d =>
    if d.tok = .ident then do
      match ← defineConst n d with
      | some d => if d.tok = .semi then constantGroup n (d.get 0) else .ok (some d)
      | none => .ok none
    else .ok (some d)

/-- The constants of `pas_DeclarationGroup`, `pas_block.c` 3140-3152 (0x84 is `tCONST`); `level` is
`g_levelSymOffset`. -/
def constantPart (level n : Nat) (d : DS) : Res (Option DS) :=
  if d.tok = .other 0x84 then constantGroup n (d.get level) else .ok (some d)

/-- `pas_DeclarationGroup`, `pas_block.c` 3105-3180, up to the variables: `tVAR` is 0xa9; tLABEL
and tTYPE are not modelled. -/
def variablePart (lev : Nat) (n : Nat) (d : DS) : Res (Option DS) :=
  let level := d.tab.length
  if d.tok = .other 0x94 then .ok none
  else do
    match ← constantPart level n d with
    | none => .ok none
    | some d =>
      if d.tok = .other 0xa5 then .ok none
      else if d.tok = .other 0xa9 then variableGroup lev level n (d.get level)
      else .ok (some d)

/-! ### Formal parameters -/

/-- The kind of the parameter in the entry `i` of the symbol table.  `pas_block.c` 2424-2428. -/
def setKind (i : Nat) (k : Kind) (d : DS) : DS :=
  { d with tab := d.tab.modify i fun e => match e.2 with
      | .var v => (e.1, .var { v with kind := k })
      | _ => e }

/-- `pas_DeclareParameter`, `pas_block.c` 2371-2432, for a value parameter; `lev` is `g_level` and `level`
is `g_levelSymOffset`.  Without an identifier the pointer that is returned has not been set; without a
type identifier it is null.  Returned is the kind of the type, if the pointer has been set. -/
def declareParm (lev level : Nat) : Nat → DS → Res (Option (Option Kind × DS))
  | 0, _ => .ok none
  | n + 1, d =>
    if d.tok ≠ .ident then .ok (some (none, d.err))
    else
      let i := d.tab.length
      let d := { d with tab := d.tab ++ [(d.last.string, Sym.var ⟨.int, lev, 0⟩)] }
      let d := d.get 0
      if d.tok = .comma then do
        match ← declareParm lev level n (d.get level) with
        | some (some k, d) => .ok (some (some k, setKind i k d))
        | some (none, _) => .ub
        | none => .ok none
      else
        let d := d.expect .colon
        match d.ptr with
        | some (.type (some k) _) => .ok (some (some k, setKind i k (d.get 0)))
        | some (.type none _) => .ok none
        | _ => .ub

/-- The loop of `pas_FormalParameterList`, `pas_block.c` 3400-3434; VAR is not modelled. -/
def formalParms (lev level : Nat) : Nat → DS → Res (Option DS)
  | 0, _ => .ok none
  | n + 1, d =>
    let d := d.get level
    if d.tok = .other 0xa9 then .ok none
    else do
      match ← declareParm lev level n d with
      | some (_, d) => if d.tok = .semi then formalParms lev level n d else .ok (some d)
      | none => .ok none

/-- The kinds of the parameters.  `pas_defns.h` 223-241. -/
def parmKinds (l : List (List Byte × Sym)) : List Kind :=
  l.filterMap fun e => match e.2 with
    | .var v => some v.kind
    | _ => none

/-- The offsets of the parameters: the last one is directly below the frame.  `pas_block.c` 3445-3461. -/
def placeParms : List (List Byte × Sym) → List (List Byte × Sym)
  | [] => []
  | (n, .var v) :: l => (n, .var { v with off := -(parmsSize (parmKinds ((n, .var v) :: l)) : Int) }) :: placeParms l
  | e :: l => e :: placeParms l

/-- `pas_FormalParameterList`, `pas_block.c` 3375-3464, of the procedure in the last entry of the symbol
table: the number and the offsets of the parameters are set at the end. -/
def formalParameterList (lev : Nat) (name : List Byte) (label : Nat) (n : Nat) (d : DS) : Res (Option DS) := do
  let level := d.tab.length
  let r ← if d.tok = .lparen then formalParms (lev + 1) level n d else .ok (some d)
  match r with
  | none => .ok none
  | some e =>
    let e := if d.tok = .lparen then e.expect .rparen else e
    let ps := e.tab.drop level
    .ok (some { e with
      tab := e.tab.take (level - 1) ++ (name, .proc ⟨lev, label, parmKinds ps⟩) :: placeParms ps })

/-! ### Blocks -/

/-- What is generated for the initializers of INPUT and OUTPUT, `pas_initializer.c` 187-232,
498-513 (with `pas_PrimeSymbolTable`, `pas_symtable.c` 726-732); they need no finalization
(571-600). -/
def initialization (s : CS) : CS :=
  genData .st 2 (genData .push 1 (genData .st 0 (genData .push 0 s)))

/-- `pas_Block`, `pas_block.c` 2955-3098, up to the statements: the state in which
`pas_CompoundStatement` is called.  In a procedure there are no initializers. -/
def blockStart (lev : Nat) (label : Word) (d : DS) (s : CS) : CS :=
  let s := { s with toks := d.body }
  let s := if d.tok = .begin_ then s else s.err
  let s := genData .label label.toNat s
  let s := if d.dstack ≠ 0 then genData .inds (alignUp d.dstack) s else s
  if lev = 0 then initialization s else s

/-- The state of the reader after statements, when the tokens `s.toks` are left: the first of them is the
last one read.  `pas_statement.c` 2318-2334. -/
def DS.resume (d : DS) (s : CS) : DS :=
  let l := (d.last :: d.rest).drop (d.rest.length + 1 - s.toks.length)
  let x := l.headD (.tk .period)
  { d with
    rest := l.tail
    tok := s.tok
    ptr := x.ptr d.tab 0
    last := x }

/-- The end of `pas_Block`, `pas_block.c` 3024-3098: the statements, and the release of the variables.
The caller restores the symbol table and `g_dStack`. -/
def blockEnd (g : Cfg) (n : Nat) (label : Word) (d : DS) (s : CS) : Option (DS × CS) := do
  let s ← compound g n (blockStart g.level label d s)
  let s := if d.dstack ≠ 0 then genData .inds (-(alignUp d.dstack : Int)) s else s
  pure (d.resume s, { s with toks := [] })

mutual

/-- The procedures of `pas_DeclarationGroup`, `pas_block.c` 3182-3260: `off` is `g_levelSymOffset`,
`label` the label of the BEGIN of the block; functions (0x8d) are not modelled. -/
def procedures (line : Nat → Byte × Word) (pad : Byte) : Nat → (lev off : Nat) → (label : Word) → (first : Bool) →
    DS → CS → Res (Option (DS × CS))
  | 0, _, _, _, _, _, _ => .ok none
  | n + 1, lev, off, label, first, d, s =>
    if d.tok = .other 0x8d then .ok none
    else if d.tok = .other 0x9c then do
      let s := if first = true ∧ 0 < lev ∧ 0 < label.toNat then genData .jmp label.toNat s else s
      match ← procedure line pad n lev (d.get off) s with
      | some (d, s) => procedures line pad n lev off label false d s
      | none => .ok none
    else .ok (some (d, s))

/-- `pas_ProcedureDeclaration`, `pas_block.c` 541-645; `lev` is `g_level`.  At the end the parameters lose
their names, so that they are not found any more; here they are removed from the symbol table, as a
simplification.  Debug information is not modelled. -/
def procedure (line : Nat → Byte × Word) (pad : Byte) : Nat → (lev : Nat) → DS → CS → Res (Option (DS × CS))
  | 0, _, _, _ => .ok none
  | n + 1, lev, d, s => do
    let (label, s) := newLabel s
    if d.tok ≠ .ident then .ok (some (d.err, s))
    else do
      let name := d.last.string
      let level := d.tab.length + 1
      let d := { d with tab := d.tab ++ [(name, Sym.proc ⟨lev, label.toNat, []⟩)] }
      match ← formalParameterList lev name label.toNat n (d.get 0) with
      | none => .ok none
      | some d =>
        match ← block line pad n (lev + 1) (d.expect .semi) (genData .label label.toNat s) with
        | none => .ok none
        | some (e, s) =>
          let e := { e with tab := d.tab.take level }
          .ok (some (e.expect .semi, genSimple .ret s))

/-- `pas_Block(0)`, `pas_block.c` 2955-3098, of a procedure. -/
def block (line : Nat → Byte × Word) (pad : Byte) : Nat → (lev : Nat) → DS → CS → Res (Option (DS × CS))
  | 0, _, _, _ => .ok none
  | n + 1, lev, d, s => do
    let (label, s) := newLabel s
    match ← variablePart lev n { d with dstack := 0 } with
    | none => .ok none
    | some e =>
      match ← procedures line pad n lev d.tab.length label true e s with
      | none => .ok none
      | some (e, s) =>
        match blockEnd ⟨lev, line, pad⟩ n label e s with
        | none => .ok none
        | some (e, s) => .ok (some ({ e with
            tab := d.tab
            dstack := d.dstack }, s))

end

/-- The list of files of a program heading, `pas_program.c` 96-133 (INPUT and OUTPUT only); fuel as
above. -/
def fileList : Nat → DS → Option DS
  | 0, _ => none
  | n + 1, d =>
    let d := d.get 0
    if d.tok = .ident then none
    else
      let d := if isFile d.tok = true then d.get 0 else d.err
      if d.tok = .comma then fileList n d else some (d.expect .rparen)

/-- The program heading, `pas_program.c` 77-138. -/
def heading (n : Nat) (d : DS) : Option DS :=
  let d := d.expect .ident
  let d := if d.tok = .lparen then fileList n d else some d
  d.map (·.expect .semi)

/-- The object: the code, the number of errors, the label of the entry point and the read-only data.
`pascal/pas_main.c` 376-428. -/
structure Object where
  code : List OpType
  errs : Nat
  entry : Word
  rodata : List Byte

/-- `pas_Program`, `pas_program.c` 72-165, after the word PROGRAM has been read, up to the procedures:
the heading, the constants and the variables of the block. -/
def declarations (n : Nat) (toks : List Lx) : Res (Option DS) :=
  let d : DS := DS.get ⟨toks, .period, none, .tk .period, primed, 4, 0⟩ 0
  match heading n d with
  | none => .ok none
  | some d =>
    if d.tok = .other 0xa8 then .ok none   -- USES
    else variablePart 0 n d

/-- `pas_Program`, with `pas_Block`, `pas_block.c` 2955-3098: `line` gives the file number and the
line of the source when so many tokens are left, `pad` the byte behind string constants of even
length.  The first label is 1. -/
def program (line : Nat → Byte × Word) (pad : Byte) (n : Nat) (toks : List Lx) : Res (Option Object) := do
  match ← declarations n toks with
  | none => .ok none
  | some d =>
    match ← procedures line pad n 0 primed.length 1 true d ⟨[], [], 0, 1, 0, 0, 0, []⟩ with
    | none => .ok none
    | some (d, s) =>
      match blockEnd ⟨0, line, pad⟩ n 1 d s with
      | none => .ok none
      | some (d, s) =>
        let s := genSimple .end_ (if d.tok = .period then s else s.err)
        .ok (some ⟨s.out, d.errs + s.errs, 1, s.ro⟩)

end Pas.Comp
