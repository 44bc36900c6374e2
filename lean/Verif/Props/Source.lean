import Verif.Lemmas.TokenErrors
import Verif.Lemmas.SourceText
import Verif.Props.Write

/-! C71: from the text of a program to its execution. -/
namespace Pas.Src
open Pas.Comp Pas.Spec Pas.Tok
open Pas.Names (Entry mapToAlias)

/-! ### The tokens of a file -/

theorem written_ne {file : List Byte} {toks : List Lx} (h : Written file toks) : file ≠ [] := by
  cases h <;> simp

/-- C71 (partial): the characters of a file are read as the tokens they stand for, up to the period that
ends the program, and the tokenizer reports no error.  Partial: only the tokens of the modelled part of
the language; tokens have at most 65535 characters, and at least one character follows the period. -/
theorem C71_tokens_partial (file : List Byte) (toks : List Lx) (h : Written file (toks ++ [.tk .period]))
    (_h0 : 0#8 ∉ file) (hp : .tk .period ∉ toks) :
    ∃ N, ∀ n, N ≤ n → readTokens n (startOfFile file) = .ok (toks ++ [.tk .period], 0) := by
  refine readTokens_written h (startOfFile file) (C56_file file ?_).1 rfl ?_ (by simp)
  · rintro rfl
    exact written_ne h rfl
  · intro x hx he
    rw [List.dropLast_concat] at hx
    exact hp (he ▸ hx)

/-- C71: the layout of a file does not matter: files with the same tokens are compiled to the same
program, whatever white space, comments, and upper or lower case of word symbols they are written
with. -/
theorem C71_layout_partial (f g : List Byte) (toks : List Lx) (hf : Written f (toks ++ [.tk .period]))
    (hg : Written g (toks ++ [.tk .period])) (h0f : 0#8 ∉ f) (h0g : 0#8 ∉ g) (hp : .tk .period ∉ toks)
    (line : Nat → Byte × Word) (pad : Byte) (name : List Byte) (files : List (List Byte)) :
    ∃ N, ∀ n, N ≤ n → buildFile line pad name files n f = buildFile line pad name files n g := by
  obtain ⟨N, hN⟩ := C71_tokens_partial f toks hf h0f hp
  obtain ⟨M, hM⟩ := C71_tokens_partial g toks hg h0g hp
  refine ⟨max N M, fun n hn => ?_⟩
  unfold buildFile
  rw [hN n (by omega), hM n (by omega)]

/-- C71: a file in which a string is not closed on its line, anywhere before the period that ends the
program, is never built. -/
theorem C71_unclosed_string (file : List Byte) (h : Unclosed file) (line : Nat → Byte × Word) (pad : Byte)
    (name : List Byte) (files : List (List Byte)) (n : Nat) (o : Link.Output) :
    buildFile line pad name files n file ≠ .ok (some o) := by
  intro hb
  unfold buildFile at hb
  rw [Res.bind_eq_ok] at hb
  obtain ⟨⟨toks, errs⟩, h1, h2⟩ := hb
  have hne : file ≠ [] := by
    have : ∀ cs, Unclosed cs → cs ≠ [] := by
      intro cs h
      cases h <;> simp
    exact this _ h
  have := readTokens_unclosed h (C56_file file hne).1 rfl h1
  have : errs ≠ 0 := by omega
  simp only [ne_eq, this, not_false_eq_true, if_true] at h2
  split at h2 <;> cases h2

/-- `program ' x`, end of line. -/
example : Unclosed ([112, 114, 111, 103, 114, 97, 109, 32, 39, 32, 120, 10] ++ [46, 10]) :=
  .later (l := []) (w := [112, 114, 111, 103, 114, 97, 109]) .nil (.word (k := [80, 82, 79, 71, 82, 65, 77])
    (by simp [words]; rfl) (by decide)) (by simp [IdentChar, Letter, Digit]) (by decide) (by decide)
    (.here (l := [32]) (u := [32, 120]) (.blank _ (by simp [Blank]) .nil) (by decide) (by decide))

/-! ### The symbol table -/

/-- The codes of the kinds of variables, `pascal/pas_tkndefs.h`. -/
def kindCode : Kind → Nat
  | .int => 0x47 | .word => 0x48 | .shortInt => 0x49 | .shortWord => 0x4a
  | .longInt => 0x4b | .longWord => 0x4c | .bool => 0x4d | .char => 0x4e

/-- The entry of the tokenizer's symbol table describes a symbol of the compiler. -/
def Describes (e : Entry) : Comp.Sym → Prop
  | .const (.int v) => e.kind = 2 ∧ e.value = v
  | .const (.bool v) => e.kind = 4 ∧ e.value = v
  | .const (.char v) => e.kind = 3 ∧ e.value = v
  | .const (.other k) => e.kind = k ∧ k = 0x96
  | .const _ => False
  | .type _ _ => e.kind = 0x44
  | .file _ => e.kind = 0x46
  | .var v => e.kind = kindCode v.kind
  | .arr _ => e.kind = 0x57
  | .proc _ => e.kind = 0x41

theorem Describes.kind {e : Entry} {y : Comp.Sym} (h : Describes e y) : e.kind ≠ 0x59 ∧ e.kind ≠ 5 := by
  unfold Describes at h
  split at h
  · omega
  · omega
  · omega
  · omega
  · exact h.elim
  · omega
  · omega
  · rename_i v
    rw [h]
    cases v.kind <;> decide
  · omega
  · omega

/-- The two views of the symbol table. -/
def SameTable (tab : List (List Byte × Comp.Sym)) (ents : List Entry) : Prop :=
  Pointwise (fun p e => e.name = some p.1 ∧ Describes e p.2) tab ents

theorem findNext_same {tab : List (List Byte × Comp.Sym)} {ents : List Entry} (h : SameTable tab ents)
    (name : List Byte) (start : Nat) : ∀ k ≤ tab.length,
    match Names.findNext ents name start k with
    | some (i, e) => ∃ m y, tab[i]? = some (m, y) ∧ ents[i]? = some e ∧ SameName m name ∧
        (((tab.take k).drop start).reverse.find? fun e => Names.strcasecmp e.1 name = .eq) = some (m, y)
    | none => (((tab.take k).drop start).reverse.find? fun e => Names.strcasecmp e.1 name = .eq) = none := by
  intro k
  induction k with
  | zero => intro _; simp [Names.findNext]
  | succ k ih =>
    intro hk
    have hk' : k < tab.length := by omega
    have ih := ih (by omega)
    unfold Names.findNext
    by_cases hs : k < start
    · rw [if_pos hs]
      have : (tab.take (k + 1)).drop start = [] := List.drop_eq_nil_of_le (by simp; omega)
      simp [this]
    · rw [if_neg hs]
      have e1 : (tab.take (k + 1)).drop start = (tab.take k).drop start ++ [tab[k]] := by
        rw [List.take_succ_eq_append_getElem hk', List.drop_append_of_le_length (by simp; omega)]
      have hl : k < ents.length := by rw [← h.1]; exact hk'
      have hd := h.2 k tab[k] ents[k] (List.getElem?_eq_getElem hk') (List.getElem?_eq_getElem hl)
      rw [e1, List.reverse_append, List.reverse_singleton, List.singleton_append, List.find?_cons,
        List.getElem?_eq_getElem hl]
      simp only [hd.1]
      by_cases hc : Names.strcasecmp tab[k].1 name = .eq
      · simp only [hc, if_true, decide_true]
        exact ⟨tab[k].1, tab[k].2, List.getElem?_eq_getElem hk', List.getElem?_eq_getElem hl,
          (Names.strcasecmp_eq _ _).1 hc, rfl⟩
      · simp only [hc, if_false, decide_false]
        exact ih

/-- C71: what the compiler's model takes a name for is what the tokenizer finds.  With a symbol table
that describes the same symbols, a token is read from the same characters as in `C71_tokens_partial`;
if it is a name, the tokenizer delivers the kind, the entry and the value of the symbol the compiler's
model works with, or the name itself if there is none. -/
theorem C71_table {tab : List (List Byte × Comp.Sym)} {ents : List Entry} (h : SameTable tab ents)
    (start : Nat) (s : Tok.State) (l w t : List Byte) (c : Byte) (x : Lx) (stop : Byte → Prop)
    (hl : Layout l) (hx : Lexeme w x stop) (hc : stop c) (hin : Coming s.inp (l ++ (w ++ c :: t)))
    (hroom : s.stack.length + w.length + 1 ≤ 65536) (hlast : s.token ≠ 46) :
    ∃ r, Scans ents start false s r ∧ Coming r.inp (c :: t) ∧ r.errors = s.errors ∧
      match (generalizing := false) x with
      | .name n => match find tab (mapToAlias n) start with
        | some y => ∃ (j : Nat) (e : Entry) (m : List Byte), tab[j]? = some (m, y) ∧ ents[j]? = some e ∧
            SameName m (mapToAlias n) ∧ r.sym = some e ∧ r.token = e.kind ∧ r.uint = e.value
        | none => r.token = 1 ∧ r.string = n
      | x => lexOf r = x := by
  obtain ⟨i, hi, hget⟩ := layout_get (tab := ents) (f := start) (w := false) hl hin (by simp)
  obtain ⟨r, h1, h2, h3, h4⟩ := lexeme_scan (tab := ents) (f := start) (s := { s with inp := i }) hx hc hi hroom
  refine ⟨r, hget r h1, h2, h3, ?_⟩
  clear hx
  unfold Found at h4
  split
  · rename_i n
    simp only at h4
    have hb : (s.token == 46) = false := by simpa using hlast
    rw [hb] at h4
    unfold Names.identSymbol Names.symbolToken at h4
    rw [Names.symbolLoop.eq_def] at h4
    simp only at h4
    have key := findNext_same h (mapToAlias n) start tab.length (Nat.le_refl _)
    rw [List.take_length, h.1] at key
    unfold find
    cases hf : Names.findNext ents (mapToAlias n) start ents.length with
    | none =>
      rw [hf] at key h4
      simp only at key h4
      rw [key]
      exact h4
    | some p =>
      obtain ⟨j, e⟩ := p
      rw [hf] at key h4
      simp only at key
      obtain ⟨m, y, k1, k2, k3, k4⟩ := key
      have hk := (h.2 j _ _ k1 k2).2.kind
      rw [k4]
      have hne : (e.kind == Names.recordObject) = false := by simp [Names.recordObject, hk.1]
      simp only [hne] at h4
      exact ⟨j, e, m, k1, k2, k3, h4.2.1, h4.1, h4.2.2 hk.2⟩
  · rename_i hn
    split at h4
    · rename_i n; exact absurd rfl (hn n)
    · exact h4

/-- The entry of a symbol. -/
def entryOf (p : List Byte × Comp.Sym) : Entry :=
  ⟨some p.1, match p.2 with
    | .const (.int _) => 2
    | .const (.bool _) => 4
    | .const (.char _) => 3
    | .const _ => 0x96
    | .type _ _ => 0x44
    | .file _ => 0x46
    | .var v => kindCode v.kind
    | .arr _ => 0x57
    | .proc _ => 0x41, match p.2 with
    | .const (.int v) => v
    | .const (.bool v) => v
    | .const (.char v) => v
    | _ => 0⟩

/-- The symbols known at the start, and a variable that hides one of them. -/
example : SameTable (primed ++ [([119, 111, 114, 100], Comp.Sym.var ⟨.int, 0, 4⟩)])
      ((primed ++ [([119, 111, 114, 100], Comp.Sym.var ⟨.int, 0, 4⟩)]).map entryOf) ∧
    find (primed ++ [([119, 111, 114, 100], Comp.Sym.var ⟨.int, 0, 4⟩)]) (mapToAlias [87, 111, 114, 100]) 0
      = some (.var ⟨.int, 0, 4⟩) := by
  refine ⟨⟨by simp, fun j p e hp he => ?_⟩, by decide +kernel⟩
  rw [List.getElem?_map, hp] at he
  simp only [Option.map_some, Option.some.injEq] at he
  subst he
  have hm := List.mem_of_getElem? hp
  refine ⟨rfl, ?_⟩
  have : ∀ p ∈ primed ++ [([119#8, 111#8, 114#8, 100#8], Comp.Sym.var ⟨.int, 0, 4⟩)], Describes (entryOf p) p.2 := by
    simp only [primed, List.cons_append, List.nil_append, List.forall_mem_cons, List.not_mem_nil, false_implies,
      implies_true, and_true]
    repeat' apply And.intro
    all_goals first | rfl | trivial
  exact this p hm

/-! ### Programs -/

theorem expr_period : {l : Lvl} → (e : E l) → Tk.period ∉ e.toks
  | _, .int _ => by simp [E.toks]
  | _, .bool _ => by simp [E.toks]
  | _, .char _ => by simp [E.toks]
  | _, .var x => by simp [E.toks, Variable.tk]
  | _, .not b f => by
    have := expr_period f
    cases b <;> simp [E.toks, this]
  | _, .paren e => by simp [E.toks, expr_period e]
  | _, .call f e => by cases f <;> simp [E.toks, Fn.tk, expr_period e]
  | _, .index a e => by simp [E.toks, Arr.tk, expr_period e]
  | _, .factor f => by simp [E.toks, expr_period f]
  | _, .mul t op f => by cases op <;> simp [E.toks, MulOp.tk, expr_period t, expr_period f]
  | _, .term none t => by simp [E.toks, expr_period t]
  | _, .term (some s) t => by cases s <;> simp [E.toks, Sign.tk, expr_period t]
  | _, .add s op t => by cases op <;> simp [E.toks, AddOp.tk, expr_period s, expr_period t]
  | _, .simple s => by simp [E.toks, expr_period s]
  | _, .rel a op b => by cases op <;> simp [E.toks, RelOp.tk, expr_period a, expr_period b]

theorem items_period (i : Item) (is : List Item) : Tk.period ∉ itemToks i is := by
  have one : ∀ i : Item, Tk.period ∉ i.toks := by
    intro i
    cases i with
    | val e w => cases w <;> simp [Item.toks, expr_period]
    | str t => simp [Item.toks]
  induction is generalizing i with
  | nil => exact one i
  | cons j is ih => simp [itemToks, one i, ih j]

theorem consts_period (k : Const) (ks : List Const) : Tk.period ∉ constToks k ks := by
  have one : ∀ k : Const, Tk.period ≠ k.tk := by intro k; cases k <;> simp [Const.tk]
  induction ks generalizing k with
  | nil => simp [constToks, one]
  | cons j ks ih => simp [constToks, one k, ih j]

theorem args_period (es : List (E .expr)) : Tk.period ∉ argToks es := by
  induction es with
  | nil => simp [argToks]
  | cons e es ih =>
    cases es with
    | nil => simp [argToks, expr_period]
    | cons e' es => simp [argToks, expr_period, ih]

theorem vars_period (x : Variable) (xs : List Variable) : Tk.period ∉ readToks x xs := by
  induction xs generalizing x with
  | nil => simp [readToks, Variable.tk]
  | cons j xs ih => simp [readToks, Variable.tk, ih j]

theorem stmt_period {k : SK} (s : S k) : Tk.period ∉ s.toks := by
  induction s with
  | write ln file i is => cases ln <;> cases file <;> simp [S.toks, items_period]
  | newline p => cases p <;> simp [S.toks]
  | read ln file x xs => cases ln <;> cases file <;> simp [S.toks, vars_period]
  | skipLine p => cases p <;> simp [S.toks]
  | call q args => simp only [S.toks, Proc.tk]; split <;> simp [args_period]
  | for_ x d a c s ih => cases d <;> simp [S.toks, Variable.tk, expr_period, ih]
  | last k ks s semi ih => cases semi <;> simp [S.toks, consts_period, ih]
  | otherwise s semi ih => cases semi <;> simp [S.toks, ih]
  | _ => simp_all [S.toks, Variable.tk, Arr.tk, expr_period, consts_period]

theorem commaNames_period (l : List (List Byte)) : Lx.tk .period ∉ commaNames l := by
  induction l with
  | nil => simp [commaNames]
  | cons n l ih => simp [commaNames, ih]

/-- The tokens of a program before its period. -/
def Source.init (P : Source) : List Lx :=
  .tk (.other 0x9d) :: .name P.name :: (fileToks P.files ++ .tk .semi ::
    (cstToks P.consts ++ (varToks P.groups ++ (P.procs.toks ++ .tk .begin_ :: (P.body ++ [.tk .end_])))))

theorem source_init (P : Source) : .tk (.other 0x9d) :: P.toks = P.init ++ [.tk .period] := by
  simp [Source.toks, Source.init]

theorem spells_period' {sc : Scope} {x : Lx} {t : Tk} (h : Spells sc x t) (ht : t ≠ .period) : x ≠ .tk .period := by
  rintro rfl
  generalize hx : Lx.tk .period = x at h
  cases h with
  | other => cases hx; exact ht rfl
  | _ => cases hx

theorem spells_period {sc : Scope} {body : List Lx} {toks : List Tk} (h : Pointwise (Spells sc) body toks)
    (ht : .period ∉ toks) : Lx.tk .period ∉ body := by
  intro hm
  obtain ⟨j, hj⟩ := List.mem_iff_getElem?.1 hm
  have hl : j < toks.length := by
    rw [← h.1]
    exact (List.getElem?_eq_some_iff.1 hj).1
  have hmem : toks[j] ∈ toks := List.getElem_mem hl
  exact spells_period' (h.2 j _ _ hj (List.getElem?_eq_getElem hl)) (fun e => ht (e ▸ hmem)) rfl

theorem const_period : {l : Lvl} → (e : K l) → Tk.period ∉ e.toks
  | _, .int _ => by simp [K.toks]
  | _, .bool _ => by simp [K.toks]
  | _, .char _ => by simp [K.toks]
  | _, .not f => by simp [K.toks, const_period f]
  | _, .fn f e => by cases f <;> simp [K.toks, KFn.fn, Fn.tk, const_period e]
  | _, .factor f => by simp [K.toks, const_period f]
  | _, .mul t op f => by cases op <;> simp [K.toks, MulOp.tk, const_period t, const_period f]
  | _, .term none t => by simp [K.toks, const_period t]
  | _, .term (some s) t => by cases s <;> simp [K.toks, Sign.tk, const_period t]
  | _, .add s op t => by cases op <;> simp [K.toks, AddOp.tk, const_period s, const_period t]

theorem cstToks_period {ks : List Cst} {sc : Scope} (h : CstsRight sc ks) : Lx.tk .period ∉ cstToks ks := by
  have : Lx.tk .period ∉ ks.flatMap Cst.toks := by
    induction ks generalizing sc with
    | nil => simp
    | cons c ks ih =>
      simp [Cst.toks, spells_period h.1.1 (const_period _), ih h.2]
  unfold cstToks
  split <;> simp [this]

theorem section_period (g : Group) : Lx.tk .period ∉ g.section := by
  simp [Group.section, commaNames_period]

theorem group_period {g : Group} {sc : Scope} (hb : g.Bounds sc) : Lx.tk .period ∉ g.toks := by
  have h : Lx.tk .period ∉ g.typeToks := by
    unfold Group.typeToks
    split
    · simp
    · rename_i r hr
      have h1 : (g.boundToks r).1 ≠ .tk .period ∧ (g.boundToks r).2 ≠ .tk .period := by
        unfold Group.boundToks
        cases hg : g.bounds with
        | none => simp
        | some b =>
          obtain ⟨h1, h2⟩ := hb r hr b hg
          exact ⟨spells_period' h1 (by simp), spells_period' h2 (by simp)⟩
      simp [h1.1.symm, h1.2.symm]
  simp [Group.toks, commaNames_period, h]

theorem varToks_period {gs : List Group} {sc : Scope} (hb : ∀ g ∈ gs, g.Bounds sc) : Lx.tk .period ∉ varToks gs := by
  have : Lx.tk .period ∉ gs.flatMap Group.toks := by
    intro hm
    obtain ⟨g, hg, h⟩ := List.mem_flatMap.1 hm
    exact group_period (hb g hg) h
  unfold varToks
  split <;> simp [this]

theorem parmToks_period (gs : List Group) : Lx.tk .period ∉ parmToks gs := by
  have h : ∀ gs, Lx.tk .period ∉ sections gs := by
    intro gs
    induction gs with
    | nil => simp [sections]
    | cons g gs ih =>
      cases gs with
      | nil => simp [sections, section_period]
      | cons g' gs => simp [sections, section_period, ih]
  unfold parmToks
  split <;> simp [h]

theorem dcl_period {k : DK} (d : Dcl k) : ∀ {lev l : Nat} {outer own : Scope}, d.Ok lev l outer own →
    Lx.tk .period ∉ d.toks := by
  induction d with
  | blk ks gs ps body st ih =>
    intro lev l outer own h
    simp only [Dcl.Ok] at h
    simp [Dcl.toks, cstToks_period h.1.constants, varToks_period h.1.bounds, ih h.2,
      spells_period h.1.body (stmt_period st)]
  | nil => intros; simp [Dcl.toks]
  | cons name parms b rest ihb ihr =>
    intro lev l outer own h
    simp only [Dcl.Ok] at h
    simp [Dcl.toks, parmToks_period, ihb h.2.2.1, ihr h.2.2.2]

theorem source_period {P : Source} {b : S .list} (ok : P.Ok b) : Lx.tk .period ∉ P.init := by
  have hb := dcl_period _ ok.block
  have hf : Lx.tk .period ∉ fileToks P.files := by
    unfold fileToks
    split <;> simp [commaNames_period]
  simp only [Dcl.toks, List.mem_append, not_or] at hb
  simp only [Source.init, List.mem_cons, List.mem_append, not_or]
  simp only [List.mem_cons, List.mem_append, not_or] at hb
  refine ⟨by simp, by simp, hf, by simp, hb.1, hb.2.1, hb.2.2.1, hb.2.2.2⟩

theorem buildFile_toks {P : Source} {b : S .list} (ok : P.Ok b) {file : List Byte}
    (hw : Written file (.tk (.other 0x9d) :: P.toks)) (h0 : 0#8 ∉ file)
    (line : Nat → Byte × Word) (pad : Byte) (name : List Byte) (files : List (List Byte)) :
    ∃ N, ∀ n, N ≤ n → buildFile line pad name files n file = build line pad name files n P.toks := by
  rw [source_init] at hw
  obtain ⟨N, hN⟩ := C71_tokens_partial file P.init hw h0 (source_period ok)
  refine ⟨N, fun n hn => ?_⟩
  unfold buildFile
  rw [hN n hn, ← source_init]
  rfl

/-- C71 (partial), from the text to the end of the execution: a file with the text of a correct program is
compiled, finalized and linked without an error, and when the program is run and its statements come to
an end, the machine stops regularly, the standard output has what the meaning of the statements says, the
variables have the values it says, and no other file has changed.  Partial: as `C52_program_partial`, for
16-bit ordinal variables and value parameters, without the optimizer. -/
theorem C71_source_partial {P : Source} {b : S .list} (ok : P.Ok b) {file : List Byte}
    (hw : Written file (.tk (.other 0x9d) :: P.toks)) (h0 : 0#8 ∉ file)
    (hs : P.size ≤ 32768) (hl : P.procs.toks.length + b.toks.length ≤ 65534) (hd : b.need 0 ≤ 16384)
    (line : Nat → Byte × Word) (pad : Byte) (name : List Byte) {files : List (List Byte)} (hf : files ≠ []) :
    ∃ N o, (∀ n, N ≤ n → buildFile line pad name files n file = .ok (some o)) ∧
      (o.prog.length ≤ 65535 →
        ∀ (strSize stkSize hpSize : Word) (m0 : Nat → Word) (host : HostFile → Option (List Byte)),
          strSize.toNat % 2 = 0 →
          even strSize.toNat + even o.rodata.length + even stkSize.toNat + even hpSize.toNat < 65536 →
          10 ≤ stkSize.toNat →
          (hpSize.toNat ≤ 32 ∨ (even strSize.toNat + even o.rodata.length + even stkSize.toNat) % 16 = 0) →
          ∃ s, startUp (attrOf o strSize stkSize hpSize) m0 host = .ok s ∧
            ∀ p : Platform, OrdinaryPlatform p →
              ∀ d, 10 + even P.size + 2 * b.need (callRoom P.decls d) + 4 ≤ stkSize.toNat →
              ∀ (σ τ : Store) (written : List Byte) (left : Option Inp),
              Exec (P.calls d) (.list b) ⟨σ, some ((host .stdout).getD []), some ⟨false, (host .stdin).getD []⟩⟩
                .normal ⟨τ, some written, left⟩ →
              (P.env s.spb.toNat).Holds s.mem σ →
              ∃ n t, runFor (machine p) o.prog (maxPc o) n s = .ok (eEXIT, t) ∧
                fileText t .stdout = written ∧ (P.env s.spb.toNat).Holds t.mem τ ∧
                ∀ f, f ≠ .stdout → t.io.files f = host f) := by
  obtain ⟨N, o, h1, h2⟩ := C70_program_partial line pad ok hs hl hd name hf
  obtain ⟨M, hM⟩ := buildFile_toks ok hw h0 line pad name files
  exact ⟨max N M, o, fun n hn => by rw [hM n (by omega), h1 n (by omega)], h2⟩

/-! ### An example -/

section
instance (b : Byte) : Decidable (Letter b) := inferInstanceAs (Decidable (_ ∨ _))
instance (b : Byte) : Decidable (Digit b) := inferInstanceAs (Decidable (_ ∧ _))
instance (b : Byte) : Decidable (IdentChar b) := inferInstanceAs (Decidable (_ ∨ _))
instance (b : Byte) : Decidable (Blank b) := inferInstanceAs (Decidable (_ ∈ _))
instance (n : List Byte) : Decidable (Plain n) := inferInstanceAs (Decidable (∀ p ∈ _, _))

/-- The text of `writeProgram`:

    PROGRAM w(OUTPUT); { n is counted }
    var n:integer;
    Begin
     n:=0; repeat N:=n+1;
     Write('n =',n:3) UNTIL(* ** *)n=2;writeln;WriteLn(Output,'end','X')
    end.
-/
def writeText : List Byte :=
  [80, 82, 79, 71, 82, 65, 77, 32, 119, 40, 79, 85, 84, 80, 85, 84, 41, 59, 32, 123, 32, 110, 32, 105,
   115, 32, 99, 111, 117, 110, 116, 101, 100, 32, 125, 10, 118, 97, 114, 32, 110, 58, 105, 110, 116,
   101, 103, 101, 114, 59, 10, 66, 101, 103, 105, 110, 10, 32, 110, 58, 61, 48, 59, 32, 114, 101, 112,
   101, 97, 116, 32, 78, 58, 61, 110, 43, 49, 59, 10, 32, 87, 114, 105, 116, 101, 40, 39, 110, 32, 61,
   39, 44, 110, 58, 51, 41, 32, 85, 78, 84, 73, 76, 40, 42, 32, 42, 42, 32, 42, 41, 110, 61, 50, 59,
   119, 114, 105, 116, 101, 108, 110, 59, 87, 114, 105, 116, 101, 76, 110, 40, 79, 117, 116, 112, 117,
   116, 44, 39, 101, 110, 100, 39, 44, 39, 88, 39, 41, 10, 101, 110, 100, 46, 10]

set_option maxRecDepth 20000 in
theorem writeText_written : Written writeText (.tk (.other 0x9d) :: writeProgram.toks) := by
  refine .cons (l := []) (w := [80, 82, 79, 71, 82, 65, 77]) (.nil) (.word (k := [80, 82, 79, 71, 82, 65, 77]) (by simp [words]) (by decide)) (by decide) (by decide) ?_
  refine .cons (l := [32]) (w := [119]) (.blank _ (by decide) (.nil)) (.name ⟨by decide, _, _, rfl, by decide⟩ (by decide +kernel) (by decide +kernel)) (by decide) (by decide) ?_
  refine .cons (l := []) (w := [40]) (.nil) (.symbol (by simp [symbols]; rfl)) (by decide) (by decide) ?_
  refine .cons (l := []) (w := [79, 85, 84, 80, 85, 84]) (.nil) (.name ⟨by decide, _, _, rfl, by decide⟩ (by decide +kernel) (by decide +kernel)) (by decide) (by decide) ?_
  refine .cons (l := []) (w := [41]) (.nil) (.symbol (by simp [symbols]; rfl)) (by decide) (by decide) ?_
  refine .cons (l := []) (w := [59]) (.nil) (.symbol (by simp [symbols]; rfl)) (by decide) (by decide) ?_
  refine .cons (l := [32, 123, 32, 110, 32, 105, 115, 32, 99, 111, 117, 110, 116, 101, 100, 32, 125, 10]) (w := [118, 97, 114]) (.blank _ (by decide) (.brace [32, 110, 32, 105, 115, 32, 99, 111, 117, 110, 116, 101, 100, 32] (by decide) (.blank _ (by decide) (.nil)))) (.word (k := [86, 65, 82]) (by simp [words]) (by decide)) (by decide) (by decide) ?_
  refine .cons (l := [32]) (w := [110]) (.blank _ (by decide) (.nil)) (.name ⟨by decide, _, _, rfl, by decide⟩ (by decide +kernel) (by decide +kernel)) (by decide) (by decide) ?_
  refine .cons (l := []) (w := [58]) (.nil) (.symbol (by simp [symbols]; rfl)) (by decide) (by decide) ?_
  refine .cons (l := []) (w := [105, 110, 116, 101, 103, 101, 114]) (.nil) (.name ⟨by decide, _, _, rfl, by decide⟩ (by decide +kernel) (by decide +kernel)) (by decide) (by decide) ?_
  refine .cons (l := []) (w := [59]) (.nil) (.symbol (by simp [symbols]; rfl)) (by decide) (by decide) ?_
  refine .cons (l := [10]) (w := [66, 101, 103, 105, 110]) (.blank _ (by decide) (.nil)) (.word (k := [66, 69, 71, 73, 78]) (by simp [words]) (by decide)) (by decide) (by decide) ?_
  refine .cons (l := [10, 32]) (w := [110]) (.blank _ (by decide) (.blank _ (by decide) (.nil))) (.name ⟨by decide, _, _, rfl, by decide⟩ (by decide +kernel) (by decide +kernel)) (by decide) (by decide) ?_
  refine .cons (l := []) (w := [58, 61]) (.nil) (.symbol (by simp [symbols]; rfl)) (by decide) (by decide) ?_
  refine .cons (l := []) (w := [48]) (.nil) (.number (by decide) (by decide) (by decide)) (by decide) (by decide) ?_
  refine .cons (l := []) (w := [59]) (.nil) (.symbol (by simp [symbols]; rfl)) (by decide) (by decide) ?_
  refine .cons (l := [32]) (w := [114, 101, 112, 101, 97, 116]) (.blank _ (by decide) (.nil)) (.word (k := [82, 69, 80, 69, 65, 84]) (by simp [words]) (by decide)) (by decide) (by decide) ?_
  refine .cons (l := [32]) (w := [78]) (.blank _ (by decide) (.nil)) (.name ⟨by decide, _, _, rfl, by decide⟩ (by decide +kernel) (by decide +kernel)) (by decide) (by decide) ?_
  refine .cons (l := []) (w := [58, 61]) (.nil) (.symbol (by simp [symbols]; rfl)) (by decide) (by decide) ?_
  refine .cons (l := []) (w := [110]) (.nil) (.name ⟨by decide, _, _, rfl, by decide⟩ (by decide +kernel) (by decide +kernel)) (by decide) (by decide) ?_
  refine .cons (l := []) (w := [43]) (.nil) (.symbol (by simp [symbols]; rfl)) (by decide) (by decide) ?_
  refine .cons (l := []) (w := [49]) (.nil) (.number (by decide) (by decide) (by decide)) (by decide) (by decide) ?_
  refine .cons (l := []) (w := [59]) (.nil) (.symbol (by simp [symbols]; rfl)) (by decide) (by decide) ?_
  refine .cons (l := [10, 32]) (w := [87, 114, 105, 116, 101]) (.blank _ (by decide) (.blank _ (by decide) (.nil))) (.word (k := [87, 82, 73, 84, 69]) (by simp [words]) (by decide)) (by decide) (by decide) ?_
  refine .cons (l := []) (w := [40]) (.nil) (.symbol (by simp [symbols]; rfl)) (by decide) (by decide) ?_
  refine .cons (l := []) (w := [39, 110, 32, 61, 39]) (.nil) (.string (t := [110, 32, 61]) (by decide) (by decide) (by decide)) (by decide) (by decide) ?_
  refine .cons (l := []) (w := [44]) (.nil) (.symbol (by simp [symbols]; rfl)) (by decide) (by decide) ?_
  refine .cons (l := []) (w := [110]) (.nil) (.name ⟨by decide, _, _, rfl, by decide⟩ (by decide +kernel) (by decide +kernel)) (by decide) (by decide) ?_
  refine .cons (l := []) (w := [58]) (.nil) (.symbol (by simp [symbols]; rfl)) (by decide) (by decide) ?_
  refine .cons (l := []) (w := [51]) (.nil) (.number (by decide) (by decide) (by decide)) (by decide) (by decide) ?_
  refine .cons (l := []) (w := [41]) (.nil) (.symbol (by simp [symbols]; rfl)) (by decide) (by decide) ?_
  refine .cons (l := [32]) (w := [85, 78, 84, 73, 76]) (.blank _ (by decide) (.nil)) (.word (k := [85, 78, 84, 73, 76]) (by simp [words]) (by decide)) (by decide) (by decide) ?_
  refine .cons (l := [40, 42, 32, 42, 42, 32, 42, 41]) (w := [110]) (.paren [32, 42, 42, 32] (by decide) (.nil)) (.name ⟨by decide, _, _, rfl, by decide⟩ (by decide +kernel) (by decide +kernel)) (by decide) (by decide) ?_
  refine .cons (l := []) (w := [61]) (.nil) (.symbol (by simp [symbols]; rfl)) (by decide) (by decide) ?_
  refine .cons (l := []) (w := [50]) (.nil) (.number (by decide) (by decide) (by decide)) (by decide) (by decide) ?_
  refine .cons (l := []) (w := [59]) (.nil) (.symbol (by simp [symbols]; rfl)) (by decide) (by decide) ?_
  refine .cons (l := []) (w := [119, 114, 105, 116, 101, 108, 110]) (.nil) (.word (k := [87, 82, 73, 84, 69, 76, 78]) (by simp [words]) (by decide)) (by decide) (by decide) ?_
  refine .cons (l := []) (w := [59]) (.nil) (.symbol (by simp [symbols]; rfl)) (by decide) (by decide) ?_
  refine .cons (l := []) (w := [87, 114, 105, 116, 101, 76, 110]) (.nil) (.word (k := [87, 82, 73, 84, 69, 76, 78]) (by simp [words]) (by decide)) (by decide) (by decide) ?_
  refine .cons (l := []) (w := [40]) (.nil) (.symbol (by simp [symbols]; rfl)) (by decide) (by decide) ?_
  refine .cons (l := []) (w := [79, 117, 116, 112, 117, 116]) (.nil) (.name ⟨by decide, _, _, rfl, by decide⟩ (by decide +kernel) (by decide +kernel)) (by decide) (by decide) ?_
  refine .cons (l := []) (w := [44]) (.nil) (.symbol (by simp [symbols]; rfl)) (by decide) (by decide) ?_
  refine .cons (l := []) (w := [39, 101, 110, 100, 39]) (.nil) (.string (t := [101, 110, 100]) (by decide) (by decide) (by decide)) (by decide) (by decide) ?_
  refine .cons (l := []) (w := [44]) (.nil) (.symbol (by simp [symbols]; rfl)) (by decide) (by decide) ?_
  refine .cons (l := []) (w := [39, 88, 39]) (.nil) (.char (b := 88) (by decide) (by decide)) (by decide) (by decide) ?_
  refine .cons (l := []) (w := [41]) (.nil) (.symbol (by simp [symbols]; rfl)) (by decide) (by decide) ?_
  refine .cons (l := [10]) (w := [101, 110, 100]) (.blank _ (by decide) (.nil)) (.word (k := [69, 78, 68]) (by simp [words]) (by decide)) (by decide) (by decide) ?_
  refine .last (l := []) (w := [46]) (.nil) (.symbol (by simp [symbols]; rfl)) (by decide) (by decide)

/-- The hypotheses of `C71_source_partial` are met, see also `C70_program_partial`. -/
example : writeProgram.Ok writeBody ∧ Written writeText (.tk (.other 0x9d) :: writeProgram.toks) ∧
    0#8 ∉ writeText ∧ writeProgram.size ≤ 32768 ∧ writeProgram.procs.toks.length + writeBody.toks.length ≤ 65534 ∧ writeBody.need 0 ≤ 16384 :=
  ⟨write_ok, writeText_written, by decide, by decide, by decide, by decide⟩

end

/-- Builds the program in a file and runs it as `buildAndWrite` does. -/
def runFile (file : List Byte) (n : Nat) : Option (List Byte) :=
  match buildFile (fun _ => (0, 0)) 0 [112] [[112]] 300 file with
  | .ok (some o) => match startUp (attrOf o 16 100 32) (fun _ => 0) with
    | .ok s => match runFor (machine barePlatform) o.prog (maxPc o) n s with
      | .ok (e, t) => if e = eEXIT then some (fileText t .stdout) else none
      | _ => none
    | _ => none
  | _ => none

/-- The text of the example, executed. -/
example : runFile writeText 200 = some written := by decide +kernel

end Pas.Src
