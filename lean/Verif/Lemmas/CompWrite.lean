import Verif.Lemmas.CompStmt

/-! The compiler generates the code of WRITE and WRITELN. -/
namespace Pas.Src
open Pas.Spec Pas.Comp

/-- A token that can begin an item. -/
def Begins (t : Tk) : Prop := (∀ o, t ≠ .file o) ∧ t ≠ .comma ∧ t ≠ .rparen

/-- A token that can begin an expression. -/
def Begins' (t : Tk) : Prop := Begins t ∧ ∀ u, t ≠ .str u

theorem expr_head {l : Lvl} (e : E l) : ∃ t r, e.toks = t :: r ∧ Begins' t := by
  induction e with
  | call f _ => exact ⟨_, _, rfl, by cases f <;> simp [Begins, Begins', Fn.tk]⟩
  | not b _ => exact ⟨_, _, rfl, by cases b <;> simp [Begins, Begins']⟩
  | factor f ih => exact ih
  | mul t op f ih _ =>
    obtain ⟨k, r, h, h1⟩ := ih
    exact ⟨k, r ++ op.tk :: f.toks, by simp [E.toks, h], h1⟩
  | term sg t ih =>
    rcases sg with _ | sg
    · exact ih
    · exact ⟨_, _, rfl, by cases sg <;> simp [Begins, Begins', Sign.tk]⟩
  | add t op f ih _ =>
    obtain ⟨k, r, h, h1⟩ := ih
    exact ⟨k, r ++ op.tk :: f.toks, by simp [E.toks, h], h1⟩
  | simple f ih => exact ih
  | rel t op f ih _ =>
    obtain ⟨k, r, h, h1⟩ := ih
    exact ⟨k, r ++ op.tk :: f.toks, by simp [E.toks, h], h1⟩
  | _ => exact ⟨_, _, rfl, by simp [Begins, Begins', Variable.tk, Arr.tk]⟩

theorem item_head (i : Item) : ∃ t r, i.toks = t :: r ∧ Begins t := by
  cases i with
  | val e w =>
    obtain ⟨t, r, h, h1⟩ := expr_head e
    cases w with
    | none => exact ⟨t, r, h, h1.1⟩
    | some w => exact ⟨t, r ++ .colon :: w.toks, by simp [Item.toks, h], h1.1⟩
  | str t => exact ⟨_, _, rfl, by simp [Begins]⟩

theorem items_head (i : Item) (is : List Item) : ∃ t r, itemToks i is = t :: r ∧ Begins t := by
  obtain ⟨t, r, h, h1⟩ := item_head i
  cases is with
  | nil => exact ⟨t, r, h, h1⟩
  | cons j is => exact ⟨t, r ++ .comma :: itemToks j is, by simp [itemToks, h], h1⟩

/-- What follows an item. -/
def AfterItem (rest : List Tk) : Prop := ∃ t r, rest = t :: r ∧ (t = .comma ∨ t = .rparen)

theorem AfterItem.stops {rest : List Tk} (h : AfterItem rest) : Stops rest := by
  obtain ⟨t, r, rfl, rfl | rfl⟩ := h <;> exact ⟨rfl, rfl, rfl, by simp⟩

variable {g : Cfg} {vars : Variable → Prop} {procs : Proc → Prop}

theorem shortExpr_after (hv : ∀ y, vars y → Usable g.level y) {w : E .expr}
    (h : w.Ok vars (.a (.num .shortInteger)) (.num .shortInteger)) (s : CS) {rest : List Tk}
    (hr : Stops rest) (c : List OpType) : ∃ N, ∀ n, N ≤ n →
      shortExpr g n (after s (w.toks ++ rest) c) =
        some (after s rest (c ++ code g.level (.a (.num .shortInteger)) w)) := by
  obtain ⟨N, hN⟩ := expr_after hv h s hr c
  refine ⟨N, fun n hn => ?_⟩
  have := hN n hn
  unfold shortExpr
  simp only [Expect.et, Ty.et] at this
  rw [this]
  rfl

/-- How a field width is written. -/
def widthToks : Option (E .expr) → List Tk
  | none => []
  | some w => .colon :: w.toks

theorem item_toks (e : E .expr) (w : Option (E .expr)) : (Item.val e w).toks = e.toks ++ widthToks w := by
  cases w <;> simp [Item.toks, widthToks]

theorem width_after (hv : ∀ y, vars y → Usable g.level y) {w : Option (E .expr)}
    (h : ∀ u ∈ w, u.Ok vars (.a (.num .shortInteger)) (.num .shortInteger)) (s : CS)
    {rest : List Tk} (hr : AfterItem rest) (c : List OpType) : ∃ N, ∀ n, N ≤ n →
      fieldWidth g n (after s (widthToks w ++ rest) c) =
        some (after s rest (c ++ codeW g.level w)) := by
  cases w with
  | none =>
    refine ⟨0, fun n _ => ?_⟩
    unfold fieldWidth
    obtain ⟨t, r, rfl, ht⟩ := hr
    have hne : t ≠ .colon := by rcases ht with rfl | rfl <;> simp
    refine (if_neg hne).trans ?_
    show some (genData .push 0 (after s (t :: r) c)) = _
    rw [genData_after (by omega)]
    rfl
  | some w =>
    obtain ⟨N, hN⟩ := shortExpr_after hv (h w rfl) s hr.stops c
    refine ⟨N, fun n hn => ?_⟩
    unfold fieldWidth
    refine (if_pos (show (after s (widthToks (some w) ++ rest) c).tok = .colon from rfl)).trans ?_
    show (shortExpr g n (after s (w.toks ++ rest) c) >>= _) = _
    rw [hN n hn]
    show precision g n (genSimple .sll (genData .push 8 _)) = _
    rw [genData_after (by omega), genSimple_after]
    unfold precision
    obtain ⟨t, r, rfl, ht⟩ := hr
    have hne : t ≠ .colon := by rcases ht with rfl | rfl <;> simp
    refine (if_neg hne).trans ?_
    simp [codeW]

/-- The read-only data is `q`. -/
def setR (s : CS) (q : List Byte) : CS := { s with ro := q }

theorem writeText_str (n : Nat) (s : CS) (t : List Byte) (r : List Tk) (c : List OpType) :
    writeText g n (after s (.str t :: r) c) =
    (fieldWidth g n (genData .push t.length (genData .lac ((s.ro.length % 65536 : Nat) : Int)
      (genData .push t.length (genSimple .dup
        (after (setR s (s.ro ++ roString g.pad t)) (.str t :: r) c)))))).bind
      fun s => some (genData .sysio 0x20 s).next := rfl

theorem writeText_other (n : Nat) (s : CS) {t : Tk} (ht : ∀ u, t ≠ .str u) (r : List Tk)
    (c : List OpType) :
    writeText g n (after s (t :: r) c) =
    (expression g n .unknown (genSimple .dup (after s (t :: r) c))).bind fun p =>
      (fieldWidth g n p.2).bind fun s =>
        some (match writeValOp p.1 with
          | some k => genData .sysio k s
          | none => s.err) := by
  cases t with
  | str u => exact absurd rfl (ht u)
  | _ => rfl

theorem writeOp_et {ty : Ty} (h : ty ≠ .bool) : writeValOp ty.et = some (wrOp ty) := by
  cases ty with
  | num t => cases t <;> rfl
  | bool => exact absurd rfl h
  | char => rfl

theorem wrOp_range (ty : Ty) : -32768 ≤ wrOp ty ∧ wrOp ty ≤ 65535 := by
  cases ty with
  | num t => cases t <;> decide
  | _ => decide

theorem item_after (hv : ∀ y, vars y → Usable g.level y) {i : Item} (h : i.Ok vars) (s : CS)
    {rest : List Tk} (hr : AfterItem rest) (c : List OpType) : ∃ N, ∀ n, N ≤ n →
      writeText g n (after s (i.toks ++ rest) c) =
        some (after (setR s (s.ro ++ i.ro g.pad)) rest (c ++ codeI g.level s.ro.length i)) := by
  cases i with
  | str t =>
    refine ⟨0, fun n _ => ?_⟩
    obtain ⟨h1, _⟩ := h
    simp only [Item.toks, List.singleton_append]
    rw [writeText_str, genSimple_after, genData_after (by omega), genData_after (by omega),
      genData_after (by omega)]
    unfold fieldWidth
    rw [if_neg (by simp)]
    simp only [Option.bind_some]
    rw [genData_after (by omega), genData_after (by omega), after_next]
    simp [codeI, Item.ro]
  | val e w =>
    obtain ⟨⟨ty, h1, h2⟩, h3⟩ := h
    obtain ⟨t, r, ht, hb⟩ := expr_head e
    have hs : Stops (widthToks w ++ rest) := by
      cases w with
      | none => exact hr.stops
      | some w => exact ⟨rfl, rfl, rfl, by simp [widthToks]⟩
    obtain ⟨N, hN⟩ := expr_after hv h1 s hs (c ++ [ins .dup 0 0])
    obtain ⟨M, hM⟩ := width_after hv h3 s hr (c ++ [ins .dup 0 0] ++ code g.level .any e)
    refine ⟨N + M, fun n hn => ?_⟩
    have e1 : (Item.val e w).toks ++ rest = t :: (r ++ (widthToks w ++ rest)) := by
      rw [item_toks, ht]; simp
    rw [e1, writeText_other n s hb.2, genSimple_after]
    have h4 := hN n (by omega)
    rw [ht] at h4
    simp only [Expect.et, List.cons_append] at h4
    rw [h4]
    simp only [Option.bind_some]
    rw [hM n (by omega)]
    simp only [Option.bind_some]
    rw [writeOp_et h2]
    simp only
    rw [genData_after (wrOp_range ty)]
    have e2 : (E.typeOf .any e).getD .bool = ty := by rw [h1.2]; rfl
    rw [codeI, e2]
    have e3 : setR s (s.ro ++ (Item.val e w).ro g.pad) = s := by simp [Item.ro, setR]
    rw [e3]
    simp

theorem items_after (hv : ∀ y, vars y → Usable g.level y) (is : List Item) :
    ∀ (i : Item), (∀ j ∈ i :: is, j.Ok vars) → ∀ (s : CS) (rest : List Tk) (c : List OpType),
    ∃ N, ∀ n, N ≤ n →
      writeItems g n (after s (itemToks i is ++ .rparen :: rest) c) =
        some (after (setR s (s.ro ++ itemsRo g.pad (i :: is))) (.rparen :: rest)
          (c ++ codeIs g.level g.pad s.ro.length (i :: is))) := by
  induction is with
  | nil =>
    intro i h s rest c
    obtain ⟨N, hN⟩ := item_after hv (h i (by simp)) s (rest := .rparen :: rest) ⟨_, _, rfl, .inr rfl⟩ c
    refine ⟨N + 1, fun n hn => ?_⟩
    obtain ⟨n, rfl⟩ : ∃ m, n = m + 1 := ⟨n - 1, by omega⟩
    unfold writeItems
    simp only [itemToks]
    rw [hN n (by omega)]
    simp only [Option.bind_eq_bind, Option.bind_some, after_tok]
    refine (if_neg (by simp)).trans ?_
    simp [itemsRo, codeIs]
  | cons j is ih =>
    intro i h s rest c
    obtain ⟨N, hN⟩ := item_after hv (h i (by simp)) s
      (rest := .comma :: (itemToks j is ++ .rparen :: rest)) ⟨_, _, rfl, .inl rfl⟩ c
    obtain ⟨M, hM⟩ := ih j (fun q hq => h q (List.mem_cons_of_mem _ hq))
      (setR s (s.ro ++ i.ro g.pad)) rest (c ++ codeI g.level s.ro.length i)
    refine ⟨N + M + 1, fun n hn => ?_⟩
    obtain ⟨n, rfl⟩ : ∃ m, n = m + 1 := ⟨n - 1, by omega⟩
    unfold writeItems
    simp only [itemToks, List.append_assoc, List.cons_append]
    rw [hN n (by omega)]
    simp only [Option.bind_eq_bind, Option.bind_some, after_tok, after_next, if_true]
    rw [hM n (by omega)]
    simp [itemsRo, codeIs, setR]

/-- The file number of OUTPUT. -/
theorem output_after (s : CS) (k : Kind) (r : List Tk) (c : List OpType) :
    stackRef g .lds ⟨k, 0, 2⟩ (after s r c) = after s r (c ++ [ins .ld 0 2]) := by
  show genData .ld 2 (after s r c) = _
  exact genData_after (by omega) _ _ _

theorem parms_after (hv : ∀ y, vars y → Usable g.level y) (file : Bool) (i : Item) (is : List Item)
    (h : ∀ j ∈ i :: is, j.Ok vars) (s : CS) (rest : List Tk) (c : List OpType) :
    ∃ N, ∀ n, N ≤ n →
      writeParms g n (after s ((if file then [.file 2, .comma] else []) ++
          (itemToks i is ++ .rparen :: rest)) c) =
        some (after (setR s (s.ro ++ itemsRo g.pad (i :: is))) (.rparen :: rest)
          (c ++ ins .ld 0 2 :: codeIs g.level g.pad s.ro.length (i :: is))) := by
  obtain ⟨N, hN⟩ := items_after hv is i h s rest (c ++ [ins .ld 0 2])
  obtain ⟨t, r, ht, hb⟩ := items_head i is
  refine ⟨N, fun n hn => ?_⟩
  have h1 := hN n hn
  cases file with
  | true =>
    show writeItems g n (if (stackRef g .lds ⟨.int, 0, 2⟩ (after s _ c)).next.tok = .comma then
      (stackRef g .lds ⟨.int, 0, 2⟩ (after s _ c)).next.next else _) = _
    rw [output_after]
    simp only [if_true, List.cons_append, List.nil_append, after_next, after_tok]
    rw [h1]
    simp
  | false =>
    simp only [Bool.false_eq_true, if_false, List.nil_append]
    rw [ht] at h1 ⊢
    have e1 : fileNumber g 2 (after s (t :: (r ++ .rparen :: rest)) c) =
        after s (t :: (r ++ .rparen :: rest)) (c ++ [ins .ld 0 2]) := by
      rw [← output_after (g := g) s .int]
      cases t with
      | file o => exact absurd rfl (hb.1 o)
      | _ => rfl
    unfold writeParms
    simp only [List.cons_append]
    rw [e1]
    rw [if_neg (show ¬ (after s (t :: (r ++ .rparen :: rest)) (c ++ [ins .ld 0 2])).tok = .comma from
      hb.2.1)]
    simp only [List.cons_append] at h1
    rw [h1]
    simp

theorem parse_write (hv : ∀ y, vars y → Usable g.level y) (ln file : Bool) (i : Item)
    (is : List Item) : ParsesS g vars procs (.write ln file i is) := by
  intro s l m x rest c b con hok hr hf hfo hop hm
  obtain ⟨N, hN⟩ := parms_after hv file i is hok s rest (c ++ [lineI g m])
  refine ⟨N + 1, fun n hn => ?_⟩
  obtain ⟨n, rfl⟩ : ∃ m, n = m + 1 := ⟨n - 1, by omega⟩
  have h1 := hN n (by omega)
  have e0 : setR s (s.ro ++ itemsRo g.pad (i :: is)) =
      setL s (l + (S.write ln file i is).nlab) (x.ro ++ (S.write ln file i is).ro g.pad) := by
    rw [← hr.ro]
    have := hr.label
    cases s; simp only at this; subst this; rfl
  have ht : (S.write ln file i is).toks ++ rest = (if ln then .writeln_ else .write_) :: .lparen ::
      ((if file then [.file 2, .comma] else []) ++ (itemToks i is ++ .rparen :: rest)) := by
    simp [S.toks]
  have hm' : (Tk.lparen :: ((if file then [.file 2, .comma] else []) ++
      (itemToks i is ++ .rparen :: rest))).length + 1 = m := by
    have : m = ((S.write ln file i is).toks ++ rest).length := by rw [hm]; simp
    rw [this, ht]; simp
  have hh : ∃ t r, (if file then [Tk.file 2, .comma] else []) ++ (itemToks i is ++ .rparen :: rest) =
      t :: r ∧ t ≠ .rparen := by
    cases file with
    | true => exact ⟨_, _, rfl, by simp⟩
    | false =>
      obtain ⟨t, r, ht, hb⟩ := items_head i is
      exact ⟨t, r ++ .rparen :: rest, by simp [ht], hb.2.2⟩
  obtain ⟨t, r, hh, hne⟩ := hh
  rw [ht]
  rw [hh] at h1 hm' ⊢
  cases ln with
  | false =>
    simp only [Bool.false_eq_true, if_false]
    rw [statement_write, hm', writeProc]
    simp only [after_next, expect_after, after_tok]
    rw [if_neg hne, h1]
    simp only [Option.bind_eq_bind, Option.bind_some]
    rw [genData_after (by omega), expect_after, e0, ← hr.ro]
    simp [codeS, hr.ro]
  | true =>
    simp only [if_true]
    rw [statement_writeln, hm', writelnProc]
    refine (if_pos rfl).trans ((if_neg hne).trans ?_)
    simp only [after_next]
    rw [h1]
    simp only [Option.bind_eq_bind, Option.bind_some]
    rw [expect_after, genData_after (by omega), e0, ← hr.ro]
    simp [codeS, hr.ro]

theorem parse_newline (parens : Bool) : ParsesS g vars procs (.newline parens) := by
  intro s l m x rest c b con hok hr hf hfo hop hm
  refine ⟨1, fun n hn => ?_⟩
  obtain ⟨n, rfl⟩ : ∃ m, n = m + 1 := ⟨n - 1, by omega⟩
  have e0 : setL s (l + (S.newline parens).nlab) (x.ro ++ (S.newline parens).ro g.pad) = s := by
    have h1 := hr.label
    have h2 := hr.ro
    cases s; simp only at h1 h2; subst h1; subst h2; simp [setL, S.nlab, S.ro]
  obtain ⟨t, r, rfl, ht⟩ := hfo
  have hm' : (((if parens then [Tk.lparen, .rparen] else []) ++ (t :: r))).length + 1 = m := by
    rw [hm]; simp [S.toks]; omega
  rw [S.toks, List.cons_append, statement_writeln, hm', writelnProc, e0]
  have hne : t ≠ .lparen := by
    simp only [List.mem_cons, List.not_mem_nil, or_false] at ht
    rcases ht with rfl | rfl | rfl | rfl | rfl <;> simp
  cases parens with
  | true =>
    refine (if_pos rfl).trans ((if_pos rfl).trans ?_)
    simp only [if_true, List.cons_append, List.nil_append, after_next]
    rw [output_after, expect_after, genData_after (by omega)]
    simp [codeS]
  | false =>
    refine (if_neg hne).trans ?_
    simp only [Bool.false_eq_true, if_false, List.nil_append, after_next]
    rw [output_after, genData_after (by omega)]
    simp [codeS]

end Pas.Src
