import Verif.Lemmas.CompWrite

/-! The compiler generates the code of READ and READLN. -/
namespace Pas.Src
open Pas.Spec Pas.Comp

variable {g : Cfg} {vars : Variable → Prop} {procs : Proc → Prop}

theorem readText_after (hv : ∀ y, vars y → Usable g.level y) {y : Variable}
    (h : vars y ∧ (y.ty = .num .integer ∨ y.ty = .char)) (s : CS) (rest : List Tk) (c : List OpType) :
    readText g (after s (y.tk :: rest) c) = some (after s rest (c ++ codeV g.level y)) := by
  have e : varParameter g (after s (y.tk :: rest) (c ++ [ins .dup 0 0])) =
      some (y.ty.kind.et, after s rest (c ++ [ins .dup 0 0] ++ [ref g.level .las y])) := by
    show some (_, (stackRef g .las ⟨y.ty.kind, y.level, y.off⟩ _).next) = _
    rw [ref_after (hv y h.1) rfl, after_next]
  unfold readText
  rw [genSimple_after, e]
  simp only [Option.bind_eq_bind, Option.bind_some]
  rcases h.2 with h | h
  · rw [h]
    show some (genData .sysio 0x14 _) = _
    rw [genData_after (by omega)]
    simp [codeV, h]
  · rw [h]
    show some (genData .sysio 0x15 _) = _
    rw [genData_after (by omega)]
    simp [codeV, h]

theorem vars_after (hv : ∀ y, vars y → Usable g.level y) (ys : List Variable) :
    ∀ (y : Variable), (∀ z ∈ y :: ys, vars z ∧ (z.ty = .num .integer ∨ z.ty = .char)) →
    ∀ (s : CS) (rest : List Tk) (c : List OpType) (n : Nat), ys.length < n →
      readItems g n (after s (readToks y ys ++ .rparen :: rest) c) =
        some (after s (.rparen :: rest) (c ++ codeVs g.level (y :: ys))) := by
  induction ys with
  | nil =>
    intro y h s rest c n hn
    obtain ⟨n, rfl⟩ : ∃ m, n = m + 1 := ⟨n - 1, by simp at hn; omega⟩
    unfold readItems
    simp only [readToks, List.cons_append, List.nil_append]
    rw [readText_after hv (h y (by simp))]
    simp only [Option.bind_eq_bind, Option.bind_some, after_tok]
    refine (if_neg (by simp)).trans ?_
    simp [codeVs]
  | cons z ys ih =>
    intro y h s rest c n hn
    obtain ⟨n, rfl⟩ : ∃ m, n = m + 1 := ⟨n - 1, by simp at hn; omega⟩
    unfold readItems
    simp only [readToks, List.cons_append]
    rw [readText_after hv (h y (by simp))]
    simp only [Option.bind_eq_bind, Option.bind_some, after_tok]
    refine (if_pos (by simp)).trans ?_
    rw [after_next, ih z (fun q hq => h q (List.mem_cons_of_mem _ hq)) s rest _ n
      (by simp at hn; omega)]
    simp [codeVs]

/-- The file number of INPUT. -/
theorem input_after (s : CS) (k : Kind) (r : List Tk) (c : List OpType) :
    stackRef g .lds ⟨k, 0, 0⟩ (after s r c) = after s r (c ++ [ins .ld 0 0]) := by
  show genData .ld 0 (after s r c) = _
  exact genData_after (by omega) _ _ _

theorem readToks_head (y : Variable) (ys : List Variable) : ∃ r, readToks y ys = y.tk :: r := by
  cases ys <;> exact ⟨_, rfl⟩

theorem readParms_after (hv : ∀ y, vars y → Usable g.level y) (file : Bool) (y : Variable)
    (ys : List Variable) (h : ∀ z ∈ y :: ys, vars z ∧ (z.ty = .num .integer ∨ z.ty = .char)) (s : CS)
    (rest : List Tk) (c : List OpType) (n : Nat) (hn : ys.length < n) :
    readParms g n (after s ((if file then [.file 0, .comma] else []) ++
        (readToks y ys ++ .rparen :: rest)) c) =
      some (after s (.rparen :: rest) (c ++ ins .ld 0 0 :: codeVs g.level (y :: ys))) := by
  have h1 := vars_after hv ys y h s rest (c ++ [ins .ld 0 0]) n hn
  cases file with
  | true =>
    show readItems g n (if (stackRef g .lds ⟨.int, 0, 0⟩ (after s _ c)).next.tok = .comma then
      (stackRef g .lds ⟨.int, 0, 0⟩ (after s _ c)).next.next else _) = _
    rw [input_after]
    simp only [if_true, List.cons_append, List.nil_append, after_next, after_tok]
    rw [h1]
    simp
  | false =>
    obtain ⟨r, hr⟩ := readToks_head y ys
    simp only [Bool.false_eq_true, if_false, List.nil_append]
    rw [hr] at h1 ⊢
    have e1 : fileNumber g 0 (after s (y.tk :: (r ++ .rparen :: rest)) c) =
        after s (y.tk :: (r ++ .rparen :: rest)) (c ++ [ins .ld 0 0]) := by
      rw [← input_after (g := g) s .int]
      rfl
    unfold readParms
    simp only [List.cons_append]
    rw [e1]
    rw [if_neg (show ¬ (after s (y.tk :: (r ++ .rparen :: rest)) (c ++ [ins .ld 0 0])).tok = .comma from
      (by intro h; cases h))]
    simp only [List.cons_append] at h1
    rw [h1]
    simp

theorem parse_read (hv : ∀ y, vars y → Usable g.level y) (ln file : Bool) (y : Variable)
    (ys : List Variable) : ParsesS g vars procs (.read ln file y ys) := by
  intro s l m x rest c b con hok hr hf hfo hop hm
  refine ⟨ys.length + 2, fun n hn => ?_⟩
  obtain ⟨n, rfl⟩ : ∃ m, n = m + 1 := ⟨n - 1, by omega⟩
  have h1 := readParms_after hv file y ys hok s rest (c ++ [lineI g m]) n (by omega)
  have e0 : setL s (l + (S.read ln file y ys).nlab) (x.ro ++ (S.read ln file y ys).ro g.pad) = s := by
    have h1 := hr.label
    have h2 := hr.ro
    cases s; simp only at h1 h2; subst h1; subst h2; simp [setL, S.nlab, S.ro]
  have ht : (S.read ln file y ys).toks ++ rest = (if ln then .readln_ else .read_) :: .lparen ::
      ((if file then [.file 0, .comma] else []) ++ (readToks y ys ++ .rparen :: rest)) := by
    simp [S.toks]
  have hm' : (Tk.lparen :: ((if file then [.file 0, .comma] else []) ++
      (readToks y ys ++ .rparen :: rest))).length + 1 = m := by
    have : m = ((S.read ln file y ys).toks ++ rest).length := by rw [hm]; simp
    rw [this, ht]; simp
  have hh : ∃ t r, (if file then [Tk.file 0, .comma] else []) ++ (readToks y ys ++ .rparen :: rest) =
      t :: r ∧ t ≠ .rparen := by
    cases file with
    | true => exact ⟨_, _, rfl, by simp⟩
    | false =>
      obtain ⟨r, ht⟩ := readToks_head y ys
      exact ⟨_, r ++ .rparen :: rest, by rw [ht]; rfl, by intro h; cases h⟩
  obtain ⟨t, r, hh, hne⟩ := hh
  rw [ht, e0]
  rw [hh] at h1 hm' ⊢
  cases ln with
  | false =>
    simp only [Bool.false_eq_true, if_false]
    rw [statement_read, hm', readProc]
    simp only [after_next, expect_after, after_tok]
    rw [if_neg hne, h1]
    simp only [Option.bind_eq_bind, Option.bind_some]
    rw [genData_after (by omega), expect_after]
    simp [codeS]
  | true =>
    simp only [if_true]
    rw [statement_readln, hm', readlnProc]
    refine (if_pos rfl).trans ((if_neg hne).trans ?_)
    simp only [after_next]
    rw [h1]
    simp only [Option.bind_eq_bind, Option.bind_some]
    rw [expect_after, genData_after (by omega)]
    simp [codeS]

theorem parse_skipLine (parens : Bool) : ParsesS g vars procs (.skipLine parens) := by
  intro s l m x rest c b con hok hr hf hfo hop hm
  refine ⟨1, fun n hn => ?_⟩
  obtain ⟨n, rfl⟩ : ∃ m, n = m + 1 := ⟨n - 1, by omega⟩
  have e0 : setL s (l + (S.skipLine parens).nlab) (x.ro ++ (S.skipLine parens).ro g.pad) = s := by
    have h1 := hr.label
    have h2 := hr.ro
    cases s; simp only at h1 h2; subst h1; subst h2; simp [setL, S.nlab, S.ro]
  obtain ⟨t, r, rfl, ht⟩ := hfo
  have hm' : (((if parens then [Tk.lparen, .rparen] else []) ++ (t :: r))).length + 1 = m := by
    rw [hm]; simp [S.toks]; omega
  rw [S.toks, List.cons_append, statement_readln, hm', readlnProc, e0]
  have hne : t ≠ .lparen := by
    simp only [List.mem_cons, List.not_mem_nil, or_false] at ht
    rcases ht with rfl | rfl | rfl | rfl | rfl <;> simp
  cases parens with
  | true =>
    refine (if_pos rfl).trans ((if_pos rfl).trans ?_)
    simp only [if_true, List.cons_append, List.nil_append, after_next]
    rw [input_after, expect_after, genData_after (by omega)]
    simp [codeS]
  | false =>
    refine (if_neg hne).trans ?_
    simp only [Bool.false_eq_true, if_false, List.nil_append, after_next]
    rw [input_after, genData_after (by omega)]
    simp [codeS]

end Pas.Src
