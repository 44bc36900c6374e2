import Verif.Model.MkConfig
import Verif.Spec.MkConfig

/-! C90: the configuration header. -/
namespace Pas.MkConfig

private theorem blank_space {c : Byte} (h : c = 32#8 ∨ c = 9#8) : isSpace c = true := by
  rcases h with rfl | rfl <;> decide

private theorem name_iff : ∀ c : Byte, isNameChar c = true ↔ NameChar c := by
  intro c
  simp only [isNameChar, NameChar, Bool.or_eq_true, Bool.and_eq_true, decide_eq_true_eq, beq_iff_eq]
  constructor
  · rintro (((h | h) | h) | h)
    · exact .inl h
    · exact .inr (.inl h)
    · exact .inr (.inr (.inl h))
    · exact .inr (.inr (.inr h))
  · rintro (h | h | h | h)
    · exact .inl (.inl (.inl h))
    · exact .inl (.inl (.inr h))
    · exact .inl (.inr h)
    · exact .inr h

private theorem name_not : ∀ c : Byte, isNameChar c = true → isSpace c = false ∧ c ≠ 35#8 ∧ c ≠ 10#8 := by decide +kernel

private theorem value_not : ∀ c : Byte, 32 < c.toNat → isSpace c = false := by decide +kernel

private theorem cString_self {l : List Byte} (h : 0#8 ∉ l) : cString l = l := by
  unfold cString
  induction l with
  | nil => rfl
  | cons c l ih =>
    have hc : (c != 0#8) = true := by
      simp only [bne_iff_ne, ne_eq]
      exact fun e => h (by simp [e])
    rw [List.takeWhile_cons, if_pos hc, ih (fun e => h (by simp [e]))]

private theorem lit_n : text "n" = [110#8] := by decide +kernel
private theorem lit_y : text "y" = [121#8] := by decide +kernel
private theorem lit_m : text "m" = [109#8] := by decide +kernel
private theorem lit_sp : text " " = [32#8] := by decide +kernel
private theorem lit_nl : text "\n" = [10#8] := by decide +kernel
private theorem lit_1 : str " 1\n" = [32#8] ++ text "1" ++ [10#8] := by decide +kernel
private theorem lit_2 : str " 2\n" = [32#8] ++ text "2" ++ [10#8] := by decide +kernel
private theorem str_text (s : String) : str s = text s := rfl

private theorem skip_blanks {a : List Byte} (h : Blanks a) (l : List Byte) : skipSpaces (a ++ l) = skipSpaces l := by
  induction a with
  | nil => rfl
  | cons c a ih =>
    rw [List.cons_append, skipSpaces, if_pos (blank_space (h c (by simp))), ih (fun x hx => h x (by simp [hx]))]

private theorem name_end {n : List Byte} (h : ∀ x ∈ n, NameChar x) (c : Byte) (l : List Byte) (hc : isNameChar c = false) :
    findNameEnd (n ++ c :: l) = (n, c :: l) := by
  induction n with
  | nil => simp [findNameEnd, hc]
  | cons x n ih =>
    simp only [List.cons_append, findNameEnd]
    rw [if_pos ((name_iff x).2 (h x (by simp))), ih (fun y hy => h y (by simp [hy]))]

private theorem after_name {b : List Byte} (h : Blanks b) (l : List Byte) : afterName (b ++ 61#8 :: l) = 61#8 :: l := by
  cases b with
  | nil => simp [afterName]
  | cons c b =>
    have hc : c ≠ 61#8 := by rcases h c (by simp) with rfl | rfl <;> decide
    rw [List.cons_append, afterName, if_pos hc, skip_blanks (fun x hx => h x (by simp [hx])), skipSpaces,
      if_neg (by decide)]

private theorem not_name_first {b : List Byte} (h : Blanks b) (l : List Byte) :
    ∃ c r, b ++ 61#8 :: l = c :: r ∧ isNameChar c = false := by
  cases b with
  | nil => exact ⟨_, _, rfl, by decide⟩
  | cons c b =>
    exact ⟨c, _, rfl, by rcases h c (by simp) with rfl | rfl <;> decide⟩

private theorem body_end {last : Byte} {b : List Byte} (h : Body last b) (l : List Byte) :
    findValueEnd (some last) (b ++ 34#8 :: l) = b ++ 34#8 :: findValueEnd none l := by
  induction h with
  | nil hl => rw [List.nil_append, findValueEnd, if_neg (by simp [hl]), List.nil_append]
  | @char last c cs hc _ ih =>
    rw [List.cons_append, findValueEnd, if_pos, ih, List.cons_append]
    by_cases hq : c = 34#8
    · exact .inr (hc hq)
    · exact .inl hq

private theorem value_end {v : List Byte} (h : Value v) {t : List Byte} (ht : t = [] ∨ ∃ c r, t = c :: r ∧ isSpace c = true) :
    findValueEnd none (v ++ t) = v := by
  induction h with
  | nil =>
    rcases ht with rfl | ⟨c, r, rfl, hc⟩
    · rfl
    · simp [findValueEnd, hc]
  | char h1 h2 _ ih => simp [findValueEnd, value_not _ h1, h2, ih]
  | @quoted b cs hb _ ih =>
    rw [show 34#8 :: (b ++ 34#8 :: cs) ++ t = 34#8 :: (b ++ 34#8 :: (cs ++ t)) by simp, findValueEnd,
      if_neg (by decide), if_pos rfl, body_end hb, ih]

private theorem value_first {v : List Byte} (h : Value v) (hn : v ≠ []) : ∃ c r, v = c :: r ∧ isSpace c = false := by
  cases h with
  | nil => exact absurd rfl hn
  | char h1 _ _ => exact ⟨_, _, rfl, value_not _ h1⟩
  | quoted _ _ => exact ⟨_, _, rfl, by decide⟩

private theorem read_name {a n : List Byte} (ha : Blanks a) (hn : n ≠ []) (h : ∀ x ∈ n, NameChar x) (l : List Byte)
    (hz : 0#8 ∉ a ++ (n ++ l)) : readLine (a ++ (n ++ l)) = some (n ++ l) := by
  have hc : cString (a ++ (n ++ l)) = a ++ (n ++ l) := cString_self hz
  obtain ⟨c, r, rfl⟩ := List.exists_cons_of_ne_nil hn
  have hx := name_not c ((name_iff c).2 (h c (by simp)))
  unfold readLine
  rw [hc, skip_blanks ha, List.cons_append, skipSpaces, if_neg (by simp [hx.1])]
  simp [hx.2]

private theorem line_ok {l : List Byte} {s : Option (List Byte × Option (List Byte))} (h : Line l s)
    {e : List Byte} (he : e = [] ∨ e = [10#8]) (hz : 0#8 ∉ l ++ e) :
    forLine (l ++ e) = Defines s := by
  unfold forLine
  have hcs : cString (l ++ e) = l ++ e := cString_self hz
  have hnl : isSpace 10#8 = true := by decide
  have hse : skipSpaces e = [] := by rcases he with rfl | rfl <;> rfl
  cases h with
  | empty ha =>
    simp only [readLine, hcs, skip_blanks ha]
    rw [hse]
    simp [Defines]
  | comment ha =>
    simp only [readLine, hcs]
    rw [List.append_assoc, skip_blanks ha, List.cons_append, show ∀ x, skipSpaces (35#8 :: x) = 35#8 :: x from fun _ => rfl]
    simp [Defines]
  | @unset a n b c ha hn hx hb hc =>
    have eq : a ++ (n ++ (b ++ 61#8 :: c)) ++ e = a ++ (n ++ (b ++ 61#8 :: (c ++ e))) := by simp
    rw [eq] at hz ⊢
    rw [read_name ha hn hx _ hz]
    obtain ⟨y, r, h1, h2⟩ := not_name_first hb (c ++ e)
    have h3 := after_name hb (c ++ e)
    rw [h1] at h3 ⊢
    simp only [parseLine, name_end hx y r h2, h3, if_true, skip_blanks hc]
    simp only [hse, definition, Defines, lit_nl, str_text]
  | @set a n b c v t ha hn hx hb hc hv hval ht =>
    have eq : a ++ (n ++ (b ++ 61#8 :: (c ++ (v ++ t)))) ++ e = a ++ (n ++ (b ++ 61#8 :: (c ++ (v ++ (t ++ e))))) := by
      simp
    rw [eq] at hz ⊢
    rw [read_name ha hn hx _ hz]
    obtain ⟨y, r, h1, h2⟩ := not_name_first hb (c ++ (v ++ (t ++ e)))
    have h3 := after_name hb (c ++ (v ++ (t ++ e)))
    rw [h1] at h3 ⊢
    obtain ⟨z, q, rfl, hq⟩ := value_first hval hv
    have h4 : skipSpaces (z :: q ++ (t ++ e)) = z :: q ++ (t ++ e) := by
      rw [List.cons_append, skipSpaces, if_neg (by simp [hq])]
    have h5 : findValueEnd none (z :: q ++ (t ++ e)) = z :: q := by
      refine value_end hval ?_
      cases t with
      | nil =>
        rcases he with rfl | rfl
        · exact .inl rfl
        · exact .inr ⟨_, _, rfl, hnl⟩
      | cons x t =>
        refine .inr ⟨x, t ++ e, rfl, blank_space ?_⟩
        simpa using ht
    simp only [parseLine, name_end hx y r h2, h3, if_true, skip_blanks hc, h4]
    rw [List.cons_append] at h5 ⊢
    simp only [h5]
    simp only [definition, Defines, lit_n, lit_y, lit_m, lit_sp, lit_nl, lit_1, lit_2]
    split
    · rw [str_text]
    · split
      · simp [str_text]
      · split
        · simp [str_text]
        · rw [str_text]

private theorem split_line (max : Nat) (rest : List Byte) : ∀ (l acc : List Byte) (k : Nat), 10#8 ∉ l →
    k + l.length + 1 ≤ max →
    splitLines max k acc (l ++ 10#8 :: rest) = (acc.reverse ++ l ++ [10#8]) :: splitLines max 0 [] rest := by
  intro l
  induction l with
  | nil => intro acc k _ _; simp [splitLines]
  | cons c l ih =>
    intro acc k hn hl
    have hc : c ≠ 10#8 := fun h => hn (by simp [h])
    have hl' : k + 1 ≠ max := by simp only [List.length_cons] at hl; omega
    rw [List.cons_append, splitLines, if_neg (by simp [hc, hl']), ih _ _ (fun h => hn (by simp [h]))
      (by simp only [List.length_cons] at hl; omega)]
    simp

private theorem split_last (max : Nat) : ∀ (l acc : List Byte) (k : Nat), 10#8 ∉ l → k + l.length < max →
    splitLines max k acc l = if acc.reverse ++ l = [] then [] else [acc.reverse ++ l] := by
  intro l
  induction l with
  | nil => intro acc k _ _; simp [splitLines]
  | cons c l ih =>
    intro acc k hn hl
    have hc : c ≠ 10#8 := fun h => hn (by simp [h])
    have hl' : k + 1 ≠ max := by simp only [List.length_cons] at hl; omega
    rw [splitLines, if_neg (by simp [hc, hl']), ih _ _ (fun h => hn (by simp [h]))
      (by simp only [List.length_cons] at hl; omega)]
    simp

/-- C90 (partial): for every configuration file, line by line a comment, nothing, or a setting, with or without an end
of the last line, the header consists of the guard and exactly what the settings stand for, in their order.  Missing:
lines of 4095 characters and more (`C90_violation_long`), lines of another form, and texts that end with a backslash
(`C90_violation_backslash`). -/
theorem C90_header_partial (lines : List (List Byte × Option (List Byte × Option (List Byte))))
    (h : ∀ p ∈ lines, Line p.1 p.2 ∧ 10#8 ∉ p.1 ∧ 0#8 ∉ p.1 ∧ p.1.length < 4095)
    (last : List Byte × Option (List Byte × Option (List Byte)))
    (hl : Line last.1 last.2 ∧ 10#8 ∉ last.1 ∧ 0#8 ∉ last.1 ∧ last.1.length < 4095) :
    generate ((lines.flatMap fun p => p.1 ++ [10#8]) ++ last.1) =
      text "/* Automatically generated file; DO NOT EDIT. */\n\n#ifndef __CONFIG_H\n#define __CONFIG_H\n\n" ++
        ((lines ++ [last]).flatMap fun p => Defines p.2) ++ text "#endif /* __CONFIG_H */\n" := by
  have key : definitions ((lines.flatMap fun p => p.1 ++ [10#8]) ++ last.1) =
      (lines ++ [last]).flatMap fun p => Defines p.2 := by
    induction lines with
    | nil =>
      obtain ⟨h1, h2, h3, h4⟩ := hl
      have hx := line_ok h1 (.inl rfl) (by simpa using h3)
      rw [List.append_nil] at hx
      unfold definitions
      rw [List.flatMap_nil, List.nil_append, split_last 4095 last.1 [] 0 h2 (by omega), List.reverse_nil, List.nil_append,
        List.nil_append, List.flatMap_cons, List.flatMap_nil, List.append_nil]
      split
      · rename_i he
        rw [he] at hx
        exact hx
      · rw [List.flatMap_cons, List.flatMap_nil, List.append_nil, hx]
    | cons p ps ih =>
      obtain ⟨h1, h2, h3, h4⟩ := h p (by simp)
      have ih := ih (fun q hq => h q (by simp [hq]))
      unfold definitions at ih ⊢
      rw [List.flatMap_cons, List.append_assoc, List.append_assoc, List.singleton_append,
        split_line 4095 _ p.1 [] 0 h2 (by omega), List.flatMap_cons, List.cons_append, List.flatMap_cons, ih]
      rw [List.reverse_nil, List.nil_append, line_ok h1 (.inr rfl) (by simpa using h3)]
  unfold generate
  rw [key]
  congr 2

/-- A file with a comment and three settings. -/
example : ∃ lines : List (List Byte × Option (List Byte × Option (List Byte))),
    (∀ p ∈ lines, Line p.1 p.2 ∧ 10#8 ∉ p.1 ∧ 0#8 ∉ p.1 ∧ p.1.length < 4095) ∧
    (lines.flatMap fun p => p.1 ++ [10#8]) = text "# c\nA=y\n B = \"x y\" # d\nC=\n" ∧
    (lines.flatMap fun p => Defines p.2) = text "#define A 1\n#define B \"x y\"\n#undef C\n" := by
  have nb : Blanks [] := by simp [Blanks]
  have b1 : Blanks [32#8] := by simp [Blanks]
  refine ⟨[(text "# c", none), (text "A=y", some (text "A", some (text "y"))),
    (text " B = \"x y\" # d", some (text "B", some (text "\"x y\""))), (text "C=", some (text "C", none))],
    ?_, by decide +kernel, by decide +kernel⟩
  intro p hp
  simp only [List.mem_cons, List.not_mem_nil, or_false] at hp
  rcases hp with rfl | rfl | rfl | rfl
  · exact ⟨.comment (a := []) (t := text " c") nb, by decide +kernel, by decide +kernel, by decide +kernel⟩
  · exact ⟨.set (a := []) (n := text "A") (b := []) (c := []) (v := text "y") (t := []) nb (by decide +kernel)
      (by intro x hx; exact (name_iff x).1 (by revert x; decide +kernel)) nb nb (by decide +kernel)
      (.char (by decide +kernel) (by decide +kernel) .nil) (.inl rfl), by decide +kernel, by decide +kernel, by decide +kernel⟩
  · exact ⟨.set (a := [32#8]) (n := text "B") (b := [32#8]) (c := [32#8]) (v := text "\"x y\"") (t := text " # d") b1 (by decide +kernel)
      (by intro x hx; exact (name_iff x).1 (by revert x; decide +kernel)) b1 b1 (by decide +kernel)
      (.quoted (b := text "x y") (.char (by decide +kernel) (.char (by decide +kernel) (.char (by decide +kernel) (.nil (by decide +kernel))))) .nil)
      (.inr (.inl rfl)), by decide +kernel, by decide +kernel, by decide +kernel⟩
  · exact ⟨.unset (a := []) (n := text "C") (b := []) (c := []) nb (by decide +kernel)
      (by intro x hx; exact (name_iff x).1 (by revert x; decide +kernel)) nb nb, by decide +kernel, by decide +kernel, by decide +kernel⟩

/-- A last line without its end. -/
example : Line (text "D=m") (some (text "D", some (text "m"))) ∧ 10#8 ∉ text "D=m" ∧ 0#8 ∉ text "D=m" ∧
    (text "D=m").length < 4095 ∧ Defines (some (text "D", some (text "m"))) = text "#define D 2\n" := by
  have nb : Blanks [] := by simp [Blanks]
  exact ⟨.set (a := []) (n := text "D") (b := []) (c := []) (v := text "m") (t := []) nb (by decide +kernel)
      (by intro x hx; exact (name_iff x).1 (by revert x; decide +kernel)) nb nb (by decide +kernel)
      (.char (by decide +kernel) (by decide +kernel) .nil) (.inl rfl), by decide +kernel, by decide +kernel, by decide +kernel,
      by decide +kernel⟩

/-- Violation of C90: a text that ends with two backslashes, which stand for one, is not ended by the quote behind it,
and the comment becomes a part of the value. -/
theorem C90_violation_backslash :
    definitions (text "A=\"x\\\\\" # c\n") = text "#define A \"x\\\\\" # c\n\n" := by
  decide +kernel

/-- Violation of C90: any character may stand between the name and the equal sign, and is passed over. -/
theorem C90_violation_name : definitions (text "A-=5\n") = text "#define A 5\n" := by
  decide +kernel

private theorem split_full (max : Nat) (rest : List Byte) : ∀ (l acc : List Byte) (k : Nat), 10#8 ∉ l → l ≠ [] →
    k + l.length = max →
    splitLines max k acc (l ++ rest) = (acc.reverse ++ l) :: splitLines max 0 [] rest := by
  intro l
  induction l with
  | nil => intro acc k _ h _; exact absurd rfl h
  | cons c l ih =>
    intro acc k hn _ hl
    have hc : c ≠ 10#8 := fun h => hn (by simp [h])
    simp only [List.length_cons] at hl
    by_cases h0 : l = []
    · subst h0
      have : k + 1 = max := by simpa using hl
      rw [List.cons_append, splitLines, if_pos (.inr this)]
      simp
    · have hl' : k + 1 ≠ max := by
        have := List.length_pos_iff.2 h0
        omega
      rw [List.cons_append, splitLines, if_neg (by simp [hc, hl']), ih _ _ (fun h => hn (by simp [h])) h0 (by omega)]
      simp

/-- Violation of C90: what stands in a comment behind its 4095th character is taken as a line of its own, and can define
a variable. -/
theorem C90_violation_long (t : List Byte) (h : 10#8 ∉ t) (hl : t.length = 4094) :
    definitions (35#8 :: t ++ text "A=y\n") = text "#define A 1\n" := by
  have e : forLine (35#8 :: t) = [] := by
    have h1 : cString (35#8 :: t) = 35#8 :: cString t := rfl
    unfold forLine readLine
    rw [h1, show ∀ x, skipSpaces (35#8 :: x) = 35#8 :: x from fun _ => rfl]
    simp
  unfold definitions
  rw [split_full 4095 _ (35#8 :: t) [] 0 (by simp [h]) (by simp) (by simp only [List.length_cons, hl]), List.flatMap_cons,
    List.reverse_nil, List.nil_append, e, List.nil_append]
  decide +kernel

/-- There is such a comment. -/
example : ∃ t : List Byte, 10#8 ∉ t ∧ t.length = 4094 :=
  ⟨List.replicate 4094 120#8, fun h => absurd (List.eq_of_mem_replicate h) (by decide), List.length_replicate⟩

/-- C90: the program reads the file `.config` in the directory it is given and writes the header for it; where there is
none, or with any other number of arguments, it writes nothing and fails. -/
theorem C90_program (files : List Byte → Option (List Byte)) (args : List (List Byte)) :
    (∀ dir file, args = [dir] → dir.length ≤ 4087 → files (dir ++ text "/.config") = some file →
      main args files = (0, generate file)) ∧
    (∀ dir, args = [dir] → dir.length ≤ 4087 → files (dir ++ text "/.config") = none →
      (main args files).1 ≠ 0 ∧ (main args files).2 = []) ∧
    (args.length ≠ 1 → (main args files).1 ≠ 0 ∧ (main args files).2 = []) := by
  have path : ∀ dir : List Byte, dir.length ≤ 4087 → filePath dir = dir ++ text "/.config" := by
    intro dir h
    unfold filePath
    have : (str "/.config").length = 8 := by decide +kernel
    exact List.take_of_length_le (by rw [List.length_append, this]; omega)
  refine ⟨?_, ?_, ?_⟩
  · rintro dir file rfl h hf
    simp only [main, path dir h, hf]
  · rintro dir rfl h hf
    simp only [main, path dir h, hf]
    exact ⟨by decide, trivial⟩
  · intro h
    match args, h with
    | [], _ => exact ⟨by simp [main], rfl⟩
    | [_], h => exact absurd rfl h
    | _ :: _ :: _, _ => exact ⟨by simp [main], rfl⟩

/-- A directory with a file, and the program run on it. -/
example : main [text "/p"] (fun n => if n = text "/p/.config" then some (text "A=y") else none) =
    (0, text "/* Automatically generated file; DO NOT EDIT. */\n\n#ifndef __CONFIG_H\n#define __CONFIG_H\n\n#define A 1\n#endif /* __CONFIG_H */\n") := by
  decide +kernel

/-- Violation of C90: of a longer name only the beginning is used, without a message: the program reads another file. -/
theorem C90_violation_path (dir file : List Byte) (files : List Byte → Option (List Byte)) (h : 4095 ≤ dir.length)
    (hf : files (dir.take 4095) = some file) : main [dir] files = (0, generate file) := by
  have : filePath dir = dir.take 4095 := by
    unfold filePath
    exact List.take_append_of_le_length h
  simp only [main, this, hf]

/-- There is such a name. -/
example : ∃ (dir file : List Byte) (files : List Byte → Option (List Byte)), 4095 ≤ dir.length ∧
    files (dir.take 4095) = some file ∧ files (dir ++ text "/.config") = none := by
  refine ⟨List.replicate 4095 120#8, [], fun n => if n.length = 4095 then some [] else none, ?_, ?_, ?_⟩
  · rw [List.length_replicate]; exact Nat.le_refl _
  · exact if_pos (by rw [List.length_take, List.length_replicate]; decide)
  · exact if_neg (by
      have : (text "/.config").length = 8 := by decide +kernel
      rw [List.length_append, this, List.length_replicate]; decide)

end Pas.MkConfig
