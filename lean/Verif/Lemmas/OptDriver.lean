import Verif.Lemmas.OptPass

/-! A whole pass over a program. -/
namespace Pas.Popt

def notEnd (i : OpType) : Bool := i.op != Op.end_.toByte

/-- The instructions before the first oEND. -/
def code (l : List OpType) : List OpType := l.takeWhile notEnd

theorem code_append {l : List OpType} (h : ∀ x ∈ l, notEnd x = true) (r : List OpType) :
    code (l ++ r) = l ++ code r := by
  unfold code
  induction l with
  | nil => rfl
  | cons x l ih =>
    rw [List.cons_append, List.takeWhile_cons, if_pos (h x (List.mem_cons_self ..)),
      ih (fun y hy => h y (List.mem_cons_of_mem _ hy))]
    rfl

theorem code_all (l : List OpType) : ∀ x ∈ code l, notEnd x = true := by
  unfold code
  induction l with
  | nil => intro x hx; cases hx
  | cons y l ih =>
    intro x hx
    rw [List.takeWhile_cons] at hx
    split at hx
    · rcases List.mem_cons.mp hx with rfl | hx
      · assumption
      · exact ih x hx
    · cases hx

theorem code_id {l : List OpType} (h : ∀ x ∈ l, notEnd x = true) : code l = l := by
  have := code_append h []
  simpa [code] using this

/-- Adding an oEND does not change the code before it. -/
theorem code_end (l r : List OpType) {e : OpType} (he : notEnd e = false) :
    code (l ++ e :: r) = code l := by
  unfold code
  induction l with
  | nil => rw [List.nil_append, List.takeWhile_cons, he]; rfl
  | cons x l ih =>
    rw [List.cons_append, List.takeWhile_cons, List.takeWhile_cons, ih]

/-- What is still to be written: the window and the input. -/
def stream (s : Pass) : List OpType := ops s.table ++ s.input

theorem readOp_out (s : Pass) : (readOp s).2.out = s.out := by
  unfold readOp; split <;> rfl
theorem readOp_table (s : Pass) : (readOp s).2.table = s.table := by
  unfold readOp; split <;> rfl

theorem ops_append (t t' : Table) : ops (t ++ t') = ops t ++ ops t' := List.map_append ..

theorem endOp_notEnd : notEnd endOp = false := rfl

theorem readOp_stream (s : Pass) (pre : List OpType) :
    code (pre ++ [(readOp s).1.ins] ++ (readOp s).2.input) = code (pre ++ s.input) ∧
      (∀ y ∈ (readOp s).1.ins :: (readOp s).2.input, y ∈ s.input ∨ y = endOp) ∧
      (readOp s).2.input.length + 1 ≤ s.input.length + 1 ∧
      (∀ x r, s.input = x :: r → (readOp s).1.ins = x ∧ ∀ y ∈ (readOp s).2.input, y ∈ r) ∧
      (s.input = [] → (readOp s).1.ins = endOp) := by
  unfold readOp
  cases hi : s.input with
  | nil =>
    refine ⟨?_, ?_, by simp, nofun, fun _ => rfl⟩
    · dsimp only
      rw [List.append_nil, List.append_nil]
      have := code_end pre [] endOp_notEnd
      exact this
    · intro y hy
      rcases List.mem_cons.mp hy with rfl | hy
      · exact Or.inr rfl
      · cases hy
  | cons x r =>
    dsimp only
    by_cases he : x.op = Op.end_.toByte
    · rw [if_pos he]
      have hx : notEnd x = false := by unfold notEnd; rw [he]; rfl
      refine ⟨?_, ?_, by simp, ?_, nofun⟩
      · rw [List.append_nil]
        exact (code_end pre [] hx).trans (code_end pre r hx).symm
      · intro y hy
        simp only [List.mem_cons, List.not_mem_nil, or_false] at hy
        subst hy
        exact Or.inl (List.mem_cons_self ..)
      · intro x' r' h
        cases h
        exact ⟨rfl, by simp⟩
    · rw [if_neg he]
      refine ⟨by rw [List.append_assoc]; rfl, fun y hy => Or.inl hy, by simp, ?_, nofun⟩
      intro x' r' h
      cases h
      exact ⟨rfl, fun y hy => hy⟩

theorem fill_spec : ∀ (n : Nat) (s : Pass),
    (fill n s).out = s.out ∧ (fill n s).table.length = s.table.length + n ∧
      code (stream (fill n s)) = code (stream s) ∧
      (∀ y ∈ stream (fill n s), y ∈ stream s ∨ y = endOp) := by
  intro n
  induction n with
  | zero => intro s; exact ⟨rfl, rfl, rfl, fun y h => Or.inl h⟩
  | succ n ih =>
    intro s
    have r := readOp_stream s (ops s.table)
    have ho := readOp_out s
    have ht := readOp_table s
    unfold fill
    obtain ⟨i1, i2, i3, i4⟩ := ih { (readOp s).2 with table := (readOp s).2.table ++ [(readOp s).1] }
    have hst : stream { (readOp s).2 with table := (readOp s).2.table ++ [(readOp s).1] } =
        ops s.table ++ [(readOp s).1.ins] ++ (readOp s).2.input := by
      unfold stream
      show ops ((readOp s).2.table ++ [(readOp s).1]) ++ (readOp s).2.input = _
      rw [ops_append, ht]; rfl
    refine ⟨i1.trans ho, ?_, i3.trans (by rw [hst]; exact r.1), ?_⟩
    · refine i2.trans ?_
      show ((readOp s).2.table ++ [(readOp s).1]).length + n = _
      rw [ht, List.length_append]
      simp only [List.length_cons, List.length_nil]
      omega
    · intro y hy
      rcases i4 y hy with h | h
      · rw [hst, List.append_assoc] at h
        rcases List.mem_append.mp h with h | h
        · exact Or.inl (List.mem_append_left _ h)
        · rcases r.2.1 y h with h | h
          · exact Or.inl (List.mem_append_right _ h)
          · exact Or.inr h
      · exact Or.inr h

theorem emit_out (s : Pass) (x : OpR) : (emit s x).out = s.out ++ [x.ins] := by
  unfold emit
  cases s.inRel with
  | nil => rfl
  | cons r rest => by_cases h : r.offset = x.off <;> simp only [h, if_true, if_false]

theorem emit_table (s : Pass) (x : OpR) : (emit s x).table = s.table := by
  unfold emit
  cases s.inRel with
  | nil => rfl
  | cons r rest => by_cases h : r.offset = x.off <;> simp only [h, if_true, if_false]

theorem emit_input (s : Pass) (x : OpR) : (emit s x).input = s.input := by
  unfold emit
  cases s.inRel with
  | nil => rfl
  | cons r rest => by_cases h : r.offset = x.off <;> simp only [h, if_true, if_false]

theorem discard_same (s : Pass) (x : OpR) : (discardRel s x).out = s.out ∧
    (discardRel s x).input = s.input := by
  unfold discardRel
  split
  · split <;> exact ⟨rfl, rfl⟩
  · exact ⟨rfl, rfl⟩

/-- The instructions the optimizer never touches. -/
def fixedOf (l : List OpType) : List OpType := l.filter isFixed

theorem fixedOf_append (l r : List OpType) : fixedOf (l ++ r) = fixedOf l ++ fixedOf r :=
  List.filter_append ..

theorem nop_notFixed {i : OpType} (h : i.op = Op.nop.toByte) : isFixed i = false := by
  unfold isFixed; rw [h, Op.ofByte_toByte]; rfl

theorem nop_notEnd {i : OpType} (h : i.op = Op.nop.toByte) : notEnd i = true := by
  unfold notEnd; rw [h]; rfl

/-- Deleting the oNOPs from the window. -/
theorem kept_spec (rest : Table) (inp : List OpType) :
    fixedOf (code (ops (rest.filter fun y => y.ins.op ≠ Op.nop.toByte) ++ inp)) =
        fixedOf (code (ops rest ++ inp)) ∧
      (code (ops (rest.filter fun y => y.ins.op ≠ Op.nop.toByte) ++ inp)).length ≤
        (code (ops rest ++ inp)).length := by
  induction rest with
  | nil => exact ⟨rfl, Nat.le_refl _⟩
  | cons x r ih =>
    by_cases h : x.ins.op = Op.nop.toByte
    · rw [List.filter_cons_of_neg (by simp [h])]
      have e : code (ops (x :: r) ++ inp) = x.ins :: code (ops r ++ inp) := by
        unfold code ops
        rw [List.map_cons, List.cons_append, List.takeWhile_cons, nop_notEnd h]; rfl
      rw [e]
      refine ⟨?_, by simp only [List.length_cons]; omega⟩
      unfold fixedOf
      rw [List.filter_cons_of_neg (by rw [nop_notFixed h]; nofun)]
      exact ih.1
    · rw [List.filter_cons_of_pos (by simp [h])]
      have e : ∀ t : Table, code (ops (x :: t) ++ inp) =
          if notEnd x.ins = true then x.ins :: code (ops t ++ inp) else [] := by
        intro t
        unfold code ops
        rw [List.map_cons, List.cons_append, List.takeWhile_cons]
      rw [e, e]
      split
      · refine ⟨?_, by simp only [List.length_cons]; omega⟩
        unfold fixedOf
        rw [List.filter_cons, List.filter_cons]
        have := ih.1
        unfold fixedOf at this
        rw [this]
      · exact ⟨rfl, Nat.le_refl _⟩

/-- The changes of the optimizer keep the code's fixed part and its length. -/
theorem code_edit {xs : List OpType} : ∀ {l l' : List OpType}, Edit xs l l' → ∀ (inp : List OpType),
    fixedOf (code (l' ++ inp)) = fixedOf (code (l ++ inp)) ∧
      (code (l' ++ inp)).length = (code (l ++ inp)).length := by
  intro l
  induction l with
  | nil =>
    intro l' h inp
    cases l' with
    | nil => exact ⟨rfl, rfl⟩
    | cons y r => have := h.len; simp at this
  | cons x l ih =>
    intro l' h inp
    cases l' with
    | nil => have := h.len; simp at this
    | cons y r =>
      have hr : Edit xs l r := ⟨by have := h.len; simpa using this,
        fun p a b ha hb => h.each (p + 1) a b (by simpa using ha) (by simpa using hb)⟩
      obtain ⟨i1, i2⟩ := ih hr inp
      have e : ∀ (z : OpType) (t : List OpType), code (z :: t ++ inp) =
          if notEnd z = true then z :: code (t ++ inp) else [] := by
        intro z t
        unfold code
        rw [List.cons_append, List.takeWhile_cons]
      have notEnd_fixed : ∀ z : OpType, isFixed z = false → notEnd z = true := by
        intro z hz
        unfold notEnd
        simp only [bne_iff_ne, ne_eq]
        intro he
        unfold isFixed at hz
        rw [he, Op.ofByte_toByte] at hz; cases hz
      have h0 := h.each 0 x y (by simp) (by simp)
      rw [e, e]
      rcases h0 with rfl | ⟨f1, f2, _⟩
      · split
        · refine ⟨?_, by simp only [List.length_cons]; omega⟩
          unfold fixedOf at i1 ⊢
          rw [List.filter_cons, List.filter_cons, i1]
        · exact ⟨rfl, rfl⟩
      · rw [if_pos (notEnd_fixed _ f1), if_pos (notEnd_fixed _ f2)]
        refine ⟨?_, by simp only [List.length_cons]; omega⟩
        unfold fixedOf at i1 ⊢
        rw [List.filter_cons_of_neg (by rw [f2]; nofun),
          List.filter_cons_of_neg (by rw [f1]; nofun)]
        exact i1

/-- State of a pass over `prog`. -/
structure PassOk (prog : List OpType) (s : Pass) : Prop where
  len : s.table.length = 16
  out : ∀ y ∈ s.out ++ stream s, Out (endOp :: prog) y
  noEnd : ∀ y ∈ s.out, notEnd y = true
  fixed : fixedOf (s.out ++ code (stream s)) = fixedOf (code prog)
  size : s.out.length + (code (stream s)).length ≤ (code prog).length

theorem passOk_chg {prog : List OpType} {s : Pass} (h : PassOk prog s) {t : Table}
    (hc : Chg s.table t) : PassOk prog { s with table := t } := by
  obtain ⟨e1, e2⟩ := code_edit hc s.input
  have e1 : fixedOf (code (stream { s with table := t })) = fixedOf (code (stream s)) := e1
  have e2 : (code (stream { s with table := t })).length = (code (stream s)).length := e2
  refine ⟨hc.len.trans h.len, ?_, h.noEnd, ?_, ?_⟩
  · intro y hy
    rcases List.mem_append.mp hy with hy | hy
    · exact h.out y (List.mem_append_left _ hy)
    · rcases List.mem_append.mp hy with hy | hy
      · refine (Edit.out hc hy).trans ?_
        intro z hz
        exact h.out z (List.mem_append_right _ (List.mem_append_left _ hz))
      · exact h.out y (List.mem_append_right _ (List.mem_append_right _ hy))
  · show fixedOf (s.out ++ code (stream { s with table := t })) = _
    rw [fixedOf_append, e1, ← fixedOf_append]
    exact h.fixed
  · show s.out.length + (code (stream { s with table := t })).length ≤ _
    rw [e2]; exact h.size

theorem out_endOp (prog : List OpType) : Out (endOp :: prog) endOp := out_same (List.mem_cons_self ..)

/-- Filling the window. -/
theorem passOk_fill {prog : List OpType} {s : Pass} (n : Nat) (hn : s.table.length + n = 16)
    (h1 : ∀ y ∈ s.out ++ stream s, Out (endOp :: prog) y) (h2 : ∀ y ∈ s.out, notEnd y = true)
    (h3 : fixedOf (s.out ++ code (stream s)) = fixedOf (code prog))
    (h4 : s.out.length + (code (stream s)).length ≤ (code prog).length) : PassOk prog (fill n s) := by
  obtain ⟨f1, f2, f3, f4⟩ := fill_spec n s
  refine ⟨f2.trans hn, ?_, by rw [f1]; exact h2, by rw [f1, f3]; exact h3, by rw [f1, f3]; exact h4⟩
  rw [f1]
  intro y hy
  rcases List.mem_append.mp hy with hy | hy
  · exact h1 y (List.mem_append_left _ hy)
  · rcases f4 y hy with hy | hy
    · exact h1 y (List.mem_append_right _ hy)
    · rw [hy]; exact out_endOp prog

theorem fill_code (n : Nat) (s : Pass) : code (stream (fill n s)) = code (stream s) :=
  (fill_spec n s).2.2.1

/-- The window moves on. -/
theorem passOk_update {prog : List OpType} {s : Pass} (h : PassOk prog s) :
    (update s).2 = false ∧ PassOk prog (update s).1 ∧
        (code (stream (update s).1)).length < (code (stream s)).length ∨
      (update s).2 = true ∧ ∃ e, e.op = Op.end_.toByte ∧ (update s).1.out = s.out ++ [e] ∧
        fixedOf s.out = fixedOf (code prog) := by
  cases ht : s.table with
  | nil => have := h.len; rw [ht] at this; cases this
  | cons x rest =>
    have hlen : rest.length = 15 := by
      have := h.len; rw [ht] at this; simpa using this
    have hst : stream s = x.ins :: (ops rest ++ s.input) := by unfold stream; rw [ht]; rfl
    by_cases he : x.ins.op = Op.end_.toByte
    · right
      have hne : notEnd x.ins = false := by unfold notEnd; rw [he]; rfl
      unfold update
      rw [ht]
      dsimp only
      refine ⟨by rw [he]; rfl, x.ins, he, ?_, ?_⟩
      · rw [if_pos (by rw [he]; decide), (fill_spec _ _).1]
        exact emit_out s x
      · have hf := h.fixed
        have hc : code (stream s) = [] := by
          rw [hst]; unfold code; rw [List.takeWhile_cons, hne]; rfl
        rw [hc, List.append_nil] at hf
        exact hf
    · left
      have hne : notEnd x.ins = true := by
        unfold notEnd; simp only [bne_iff_ne, ne_eq]; exact he
      have hc : code (stream s) = x.ins :: code (ops rest ++ s.input) := by
        rw [hst]; unfold code; rw [List.takeWhile_cons, hne]; rfl
      obtain ⟨k1, k2⟩ := kept_spec rest s.input
      have hk : (rest.filter fun y => y.ins.op ≠ Op.nop.toByte).length ≤ 15 := by
        rw [← hlen]; exact List.length_filter_le ..
      have hfix := h.fixed
      rw [hc, fixedOf_append] at hfix
      have hsize := h.size
      rw [hc, List.length_cons] at hsize
      have hmem : ∀ y ∈ ops (rest.filter fun y => y.ins.op ≠ Op.nop.toByte) ++ s.input,
          Out (endOp :: prog) y := by
        intro y hy
        refine h.out y (List.mem_append_right _ ?_)
        rw [hst]
        rcases List.mem_append.mp hy with hy | hy
        · obtain ⟨z, hz, rfl⟩ := List.mem_map.mp hy
          exact List.mem_cons_of_mem _ (List.mem_append_left _
            (List.mem_map.mpr ⟨z, (List.mem_filter.mp hz).1, rfl⟩))
        · exact List.mem_cons_of_mem _ (List.mem_append_right _ hy)
      unfold update
      rw [ht]
      dsimp only
      refine ⟨by simpa using he, ?_⟩
      by_cases hn : x.ins.op = Op.nop.toByte
      · rw [if_neg (by simpa using hn)]
        obtain ⟨d1, d2⟩ := discard_same s x
        have hst' : stream { discardRel s x with
            table := rest.filter fun y => y.ins.op ≠ Op.nop.toByte } =
            ops (rest.filter fun y => y.ins.op ≠ Op.nop.toByte) ++ s.input := by
          unfold stream; show _ ++ (discardRel s x).input = _; rw [d2]
        refine ⟨passOk_fill _ ?_ ?_ ?_ ?_ ?_, ?_⟩
        · show (rest.filter fun y => y.ins.op ≠ Op.nop.toByte).length + (WINDOW - _) = 16
          unfold WINDOW; omega
        · rw [hst']
          intro y hy
          rcases List.mem_append.mp hy with hy | hy
          · exact h.out y (List.mem_append_left _ (by rw [← d1]; exact hy))
          · exact hmem y hy
        · show ∀ y ∈ (discardRel s x).out, _
          rw [d1]; exact h.noEnd
        · rw [hst']
          show fixedOf ((discardRel s x).out ++ _) = _
          rw [d1, fixedOf_append, k1, ← hfix]
          congr 1
          unfold fixedOf
          rw [List.filter_cons_of_neg (by rw [nop_notFixed hn]; nofun)]
        · rw [hst']
          show (discardRel s x).out.length + _ ≤ _
          rw [d1]; omega
        · rw [fill_code, hst', hc, List.length_cons]; omega
      · rw [if_pos hn]
        have d1 := emit_out s x
        have d2 := emit_input s x
        have hst' : stream { emit s x with
            table := rest.filter fun y => y.ins.op ≠ Op.nop.toByte } =
            ops (rest.filter fun y => y.ins.op ≠ Op.nop.toByte) ++ s.input := by
          unfold stream; show _ ++ (emit s x).input = _; rw [d2]
        refine ⟨passOk_fill _ ?_ ?_ ?_ ?_ ?_, ?_⟩
        · show (rest.filter fun y => y.ins.op ≠ Op.nop.toByte).length + (WINDOW - _) = 16
          unfold WINDOW; omega
        · rw [hst']
          intro y hy
          rcases List.mem_append.mp hy with hy | hy
          · have hy : y ∈ (emit s x).out := hy
            rw [d1] at hy
            rcases List.mem_append.mp hy with hy | hy
            · exact h.out y (List.mem_append_left _ hy)
            · refine h.out y (List.mem_append_right _ ?_)
              rw [hst, List.mem_singleton.mp hy]
              exact List.mem_cons_self ..
          · exact hmem y hy
        · show ∀ y ∈ (emit s x).out, _
          rw [d1]
          intro y hy
          rcases List.mem_append.mp hy with hy | hy
          · exact h.noEnd y hy
          · rw [List.mem_singleton.mp hy]; exact hne
        · rw [hst']
          show fixedOf ((emit s x).out ++ _) = _
          rw [d1, fixedOf_append, k1, fixedOf_append, ← hfix, List.append_assoc]
          congr 1
          unfold fixedOf
          rw [← List.filter_append]
          rfl
        · rw [hst']
          show (emit s x).out.length + _ ≤ _
          rw [d1, List.length_append]
          simp only [List.length_cons, List.length_nil]
          omega
        · rw [fill_code, hst', hc, List.length_cons]; omega

/-- What a pass hands on. -/
structure Kept (prog out : List OpType) : Prop where
  shape : ∃ init e, out = init ++ [e] ∧ e.op = Op.end_.toByte ∧ (∀ y ∈ init, notEnd y = true) ∧
    fixedOf init = fixedOf (code prog) ∧ init.length ≤ (code prog).length
  from_ : ∀ y ∈ out, Out (endOp :: prog) y

section
variable {body : Nat → Table → Res (Table × Nat)} (hb : BodyOk body)
include hb

theorem advance_kept {prog : List OpType} : ∀ (fuel : Nat) (s s' : Pass), PassOk prog s →
    advance body fuel s = .ok s' → Kept prog s'.out := by
  intro fuel
  induction fuel with
  | zero => intro s s' _ h; cases h
  | succ fuel ih =>
    intro s s' hs h
    unfold advance at h
    rw [Res.bind_eq_ok] at h
    obtain ⟨t, ht, h⟩ := h
    have hc := settle_chg hb fuel s.table t (Nat.le_of_eq hs.len) ht
    have hs' := passOk_chg hs hc
    rcases passOk_update hs' with ⟨u1, u2, _⟩ | ⟨u1, e, u2, u3, u4⟩
    · dsimp only at h
      rw [u1] at h
      exact ih _ _ u2 h
    · dsimp only at h
      rw [u1] at h
      cases h
      refine ⟨⟨s.out, e, u3, u2, hs.noEnd, u4, by have := hs.size; omega⟩, ?_⟩
      rw [u3]
      intro y hy
      rcases List.mem_append.mp hy with hy | hy
      · exact hs.out y (List.mem_append_left _ hy)
      · rw [List.mem_singleton.mp hy]
        exact ⟨Or.inl ⟨endOp, List.mem_cons_self .., u2.symm⟩, fun hj => by
          rw [isJump_of_op u2 (by decide)] at hj; cases hj⟩

theorem passOk_free {bad : Op → Bool} (hbad : ∀ o, madeOp o = true → bad o = false)
    {prog : List OpType} (hf : Free bad (endOp :: prog)) {s : Pass} (hs : PassOk prog s) :
    Free bad (ops s.table) :=
  free_out hbad hf (fun y hy => hs.out y (List.mem_append_right _ (List.mem_append_left _ hy)))

/-- Bound for one window. -/
def SETB : Nat := 656 * 16 + LOOPB + 1

theorem advance_hang {prog : List OpType} (hf : Free udivOp (endOp :: prog)) :
    ∀ (fuel : Nat) (s : Pass), PassOk prog s → (code (stream s)).length + SETB < fuel →
      advance body fuel s ≠ .hang := by
  intro fuel
  induction fuel with
  | zero => intro s _ h; omega
  | succ fuel ih =>
    intro s hs hn h
    unfold advance at h
    have hm := meas_bound s.table
    rw [hs.len] at hm
    cases h1 : settle body fuel s.table with
    | hang =>
      exact settle_hang hb fuel s.table (Nat.le_of_eq hs.len) (passOk_free hb made_udiv hf hs)
        (by unfold SETB at hn; omega) h1
    | ub => rw [h1] at h; cases h
    | ok t =>
      rw [h1] at h
      have hc := settle_chg hb fuel s.table t (Nat.le_of_eq hs.len) h1
      have hs' := passOk_chg hs hc
      have hl : (code (stream { s with table := t })).length = (code (stream s)).length :=
        (code_edit hc s.input).2
      simp only [Res.ok_bind] at h
      rcases passOk_update hs' with ⟨u1, u2, u3⟩ | ⟨u1, _⟩
      · rw [u1] at h
        exact ih _ u2 (by omega) h
      · rw [u1] at h
        cases h

theorem advance_ub {prog : List OpType} (hf : Free failOp (endOp :: prog)) :
    ∀ (fuel : Nat) (s : Pass), PassOk prog s → advance body fuel s ≠ .ub := by
  intro fuel
  induction fuel with
  | zero => intro s _ h; cases h
  | succ fuel ih =>
    intro s hs h
    unfold advance at h
    cases h1 : settle body fuel s.table with
    | ub =>
      exact settle_ub hb fuel s.table (Nat.le_of_eq hs.len) (passOk_free hb made_fail hf hs) h1
    | hang => rw [h1] at h; cases h
    | ok t =>
      rw [h1] at h
      have hc := settle_chg hb fuel s.table t (Nat.le_of_eq hs.len) h1
      have hs' := passOk_chg hs hc
      simp only [Res.ok_bind] at h
      rcases passOk_update hs' with ⟨u1, u2, u3⟩ | ⟨u1, _⟩
      · rw [u1] at h
        exact ih _ u2 h
      · rw [u1] at h
        cases h

theorem advance_mono : ∀ (fuel : Nat) (s : Pass), advance body fuel s ≠ .hang →
    advance body (fuel + 1) s = advance body fuel s := by
  intro fuel
  induction fuel with
  | zero => intro s h; exact absurd rfl h
  | succ fuel ih =>
    intro s h
    unfold advance at h
    rw [advance]
    conv => rhs; rw [advance]
    cases h1 : settle body fuel s.table with
    | hang => rw [h1] at h; exact absurd rfl h
    | ub => rw [settle_mono hb _ _ (by rw [h1]; nofun), h1]; rfl
    | ok t =>
      rw [h1] at h
      rw [settle_mono hb _ _ (by rw [h1]; nofun), h1]
      simp only [Res.ok_bind] at h ⊢
      split
      · rfl
      · next hd => rw [if_neg hd] at h; exact ih _ h

end

/-! ### The leading instructions -/

theorem skipLead_hang : ∀ (fuel : Nat) (s : Pass), s.input.length < fuel →
    skipLead fuel s ≠ .hang := by
  intro fuel
  induction fuel with
  | zero => intro s h; omega
  | succ fuel ih =>
    intro s hl h
    unfold skipLead at h
    dsimp only at h
    split at h
    · next hc =>
      refine ih _ ?_ h
      rw [emit_input]
      cases hi : s.input with
      | nil =>
        have := (readOp_stream s []).2.2.2.2 hi
        rw [this] at hc
        exact absurd rfl hc.2
      | cons x r =>
        have hx : (readOp s).1.ins = x := ((readOp_stream s []).2.2.2.1 x r hi).1
        rw [hx] at hc
        have : (readOp s).2.input = r := by
          unfold readOp; rw [hi]; dsimp only; rw [if_neg hc.2]
        rw [this]
        rw [hi] at hl
        simp only [List.length_cons] at hl
        omega
    · cases h

theorem skipLead_ub : ∀ (fuel : Nat) (s : Pass), skipLead fuel s ≠ .ub := by
  intro fuel
  induction fuel with
  | zero => intro s h; cases h
  | succ fuel ih =>
    intro s h
    unfold skipLead at h
    dsimp only at h
    split at h
    · exact ih _ h
    · cases h

theorem skipLead_mono : ∀ (fuel : Nat) (s : Pass), skipLead fuel s ≠ .hang →
    skipLead (fuel + 1) s = skipLead fuel s := by
  intro fuel
  induction fuel with
  | zero => intro s h; exact absurd rfl h
  | succ fuel ih =>
    intro s h
    unfold skipLead at h
    rw [skipLead]
    conv => rhs; rw [skipLead]
    dsimp only at h ⊢
    split
    · next hc => rw [if_pos hc] at h; exact ih _ h
    · rfl

/-- The leading instructions are copied.  With a label before the first oEND nothing but that is
done; without one the oEND is copied too. -/
theorem skipLead_spec {prog : List OpType} : ∀ (fuel : Nat) (s s' : Pass), s.table = [] →
    (∀ y ∈ s.out, notEnd y = true) → (∃ y ∈ code s.input, y.op = Op.label.toByte) →
    (∀ y ∈ s.out ++ s.input, Out (endOp :: prog) y) →
    s.out ++ code s.input = code prog → skipLead fuel s = .ok s' →
    s'.table = [] ∧ (∀ y ∈ s'.out, notEnd y = true) ∧ (∀ y ∈ s'.out ++ s'.input, Out (endOp :: prog) y) ∧
      s'.out ++ code s'.input = code prog := by
  intro fuel
  induction fuel with
  | zero => intro s s' _ _ _ _ _ h; cases h
  | succ fuel ih =>
    intro s s' ht hne hlab hout hcode h
    unfold skipLead at h
    dsimp only at h
    cases hi : s.input with
    | nil =>
      rw [hi] at hlab
      obtain ⟨y, hy, _⟩ := hlab
      exact absurd hy (by simp [code])
    | cons x r =>
      have hr := readOp_stream s []
      have hx : (readOp s).1.ins = x := (hr.2.2.2.1 x r hi).1
      have hxe : x.op ≠ Op.end_.toByte := by
        intro he
        rw [hi] at hlab
        obtain ⟨y, hy, _⟩ := hlab
        have : notEnd x = false := by unfold notEnd; rw [he]; rfl
        unfold code at hy
        rw [List.takeWhile_cons, this] at hy
        cases hy
      have hxn : notEnd x = true := by unfold notEnd; simpa using hxe
      have hin : (readOp s).2.input = r := by
        unfold readOp; rw [hi]; dsimp only; rw [if_neg hxe]
      have e1 : (emit (readOp s).2 (readOp s).1).out = s.out ++ [x] := by
        rw [emit_out, readOp_out, hx]
      have e2 : (emit (readOp s).2 (readOp s).1).input = r := by rw [emit_input, hin]
      have e3 : (emit (readOp s).2 (readOp s).1).table = [] := by rw [emit_table, readOp_table, ht]
      have hcons : code s.input = x :: code r := by
        rw [hi]; unfold code; rw [List.takeWhile_cons, hxn]; rfl
      have g1 : ∀ y ∈ s.out ++ [x], notEnd y = true := by
        intro y hy
        rcases List.mem_append.mp hy with hy | hy
        · exact hne y hy
        · rw [List.mem_singleton.mp hy]; exact hxn
      have g2 : ∀ y ∈ s.out ++ [x] ++ r, Out (endOp :: prog) y := by
        intro y hy
        refine hout y ?_
        rw [hi]
        rw [List.append_assoc] at hy
        exact hy
      have g3 : s.out ++ [x] ++ code r = code prog := by
        rw [← hcode, hcons, List.append_assoc]; rfl
      split at h
      · next hc =>
        rw [hx] at hc
        refine ih _ s' e3 (by rw [e1]; exact g1) ?_ (by rw [e1, e2]; exact g2)
          (by rw [e1, e2]; exact g3) h
        rw [e2]
        obtain ⟨y, hy, hyl⟩ := hlab
        rw [hcons] at hy
        rcases List.mem_cons.mp hy with rfl | hy
        · exact absurd hyl hc.1
        · exact ⟨y, hy, hyl⟩
      · cases h
        exact ⟨e3, by rw [e1]; exact g1, by rw [e1, e2]; exact g2, by rw [e1, e2]; exact g3⟩

theorem setup_ok {fuel : Nat} {prog : List OpType} {rels : List Reloc} {s : Pass}
    (hlab : ∃ y ∈ code prog, y.op = Op.label.toByte) (h : setup fuel prog rels = .ok s) :
    PassOk prog s := by
  unfold setup at h
  rw [Res.bind_eq_ok] at h
  obtain ⟨s₀, h1, h⟩ := h
  cases h
  obtain ⟨k1, k2, k3, k4⟩ := skipLead_spec (prog := prog) fuel _ s₀ rfl (by simp) hlab
    (fun y hy => out_same (List.mem_cons_of_mem _ (by simpa using hy))) rfl h1
  have hst : stream s₀ = s₀.input := by unfold stream; rw [k1]; rfl
  refine passOk_fill _ (by rw [k1]; rfl) (by rw [hst]; exact k3) k2 (by rw [hst, k4]) ?_
  rw [hst, ← List.length_append, k4]
  exact Nat.le_refl _

theorem code_le (prog : List OpType) : (code prog).length ≤ prog.length :=
  (List.takeWhile_sublist (p := notEnd) (l := prog)).length_le

section
variable {body : Nat → Table → Res (Table × Nat)} (hb : BodyOk body)
include hb

theorem pass_kept {fuel : Nat} {prog : List OpType} {rels : List Reloc}
    {r : List OpType × List Reloc × Bool} (hlab : ∃ y ∈ code prog, y.op = Op.label.toByte)
    (h : pass body fuel prog rels = .ok r) : Kept prog r.1 := by
  unfold pass at h
  rw [Res.bind_eq_ok] at h
  obtain ⟨s, h1, h⟩ := h
  rw [Res.bind_eq_ok] at h
  obtain ⟨s', h2, h⟩ := h
  cases h
  exact advance_kept hb fuel s s' (setup_ok hlab h1) h2

theorem pass_hang {fuel : Nat} {prog : List OpType} {rels : List Reloc}
    (hlab : ∃ y ∈ code prog, y.op = Op.label.toByte) (hf : Free udivOp (endOp :: prog))
    (hn : prog.length + SETB < fuel) : pass body fuel prog rels ≠ .hang := by
  intro h
  unfold pass at h
  cases h1 : setup fuel prog rels with
  | ub => rw [h1] at h; cases h
  | hang =>
    unfold setup at h1
    cases h2 : skipLead fuel ⟨[], prog, 0, [], 0, rels, []⟩ with
    | hang => exact skipLead_hang fuel _ (by show prog.length < fuel; omega) h2
    | ub => rw [h2] at h1; cases h1
    | ok _ => rw [h2] at h1; cases h1
  | ok s =>
    rw [h1] at h
    have hs := setup_ok hlab h1
    simp only [Res.ok_bind] at h
    cases h2 : advance body fuel s with
    | hang => exact advance_hang hb hf fuel s hs (by have := hs.size; have := code_le prog; omega) h2
    | ub => rw [h2] at h; cases h
    | ok s' => rw [h2] at h; cases h

theorem pass_ub {fuel : Nat} {prog : List OpType} {rels : List Reloc}
    (hlab : ∃ y ∈ code prog, y.op = Op.label.toByte) (hf : Free failOp (endOp :: prog)) :
    pass body fuel prog rels ≠ .ub := by
  intro h
  unfold pass at h
  cases h1 : setup fuel prog rels with
  | hang => rw [h1] at h; cases h
  | ub =>
    unfold setup at h1
    cases h2 : skipLead fuel ⟨[], prog, 0, [], 0, rels, []⟩ with
    | ub => exact skipLead_ub fuel _ h2
    | hang => rw [h2] at h1; cases h1
    | ok _ => rw [h2] at h1; cases h1
  | ok s =>
    rw [h1] at h
    have hs := setup_ok hlab h1
    simp only [Res.ok_bind] at h
    cases h2 : advance body fuel s with
    | ub => exact advance_ub hb hf fuel s hs h2
    | hang => rw [h2] at h; cases h
    | ok s' => rw [h2] at h; cases h

theorem pass_mono {fuel : Nat} {prog : List OpType} {rels : List Reloc}
    (h : pass body fuel prog rels ≠ .hang) :
    pass body (fuel + 1) prog rels = pass body fuel prog rels := by
  unfold pass setup at h ⊢
  cases h1 : skipLead fuel ⟨[], prog, 0, [], 0, rels, []⟩ with
  | hang => rw [h1] at h; exact absurd rfl h
  | ub => rw [skipLead_mono _ _ (by rw [h1]; nofun), h1]; rfl
  | ok s =>
    rw [h1] at h
    rw [skipLead_mono _ _ (by rw [h1]; nofun), h1]
    simp only [Res.ok_bind, Res.pure_eq] at h ⊢
    cases h2 : advance body fuel (fill WINDOW s) with
    | hang => rw [h2] at h; exact absurd rfl h
    | ub => rw [advance_mono hb _ _ (by rw [h2]; nofun), h2]
    | ok s' => rw [advance_mono hb _ _ (by rw [h2]; nofun), h2]

end

/-! ### Both passes -/

theorem Kept.label {prog out : List OpType} (h : Kept prog out)
    (hlab : ∃ y ∈ code prog, y.op = Op.label.toByte) : ∃ y ∈ code out, y.op = Op.label.toByte := by
  obtain ⟨y, hy, hyl⟩ := hlab
  obtain ⟨init, e, he, hee, hne, hfix, _⟩ := h.shape
  have hyf : isFixed y = true := by unfold isFixed; rw [hyl, Op.ofByte_toByte]; rfl
  have : y ∈ fixedOf init := by rw [hfix]; exact List.mem_filter.mpr ⟨hy, hyf⟩
  refine ⟨y, ?_, hyl⟩
  have hend : notEnd e = false := by unfold notEnd; rw [hee]; rfl
  rw [he, code_end init [] hend, code_id hne]
  exact (List.mem_filter.mp this).1

theorem Kept.free {bad : Op → Bool} (hbad : ∀ o, madeOp o = true → bad o = false)
    (hend : bad .end_ = false) {prog out : List OpType} (h : Kept prog out) (hf : Free bad prog) :
    Free bad (endOp :: out) := by
  have hf' : Free bad (endOp :: prog) := by
    intro x hx o ho
    rcases List.mem_cons.mp hx with rfl | hx
    · have : Op.end_ = o := Op.toByte_inj ho
      rw [← this]; exact hend
    · exact hf x hx o ho
  refine free_out hbad hf' ?_
  intro y hy
  rcases List.mem_cons.mp hy with rfl | hy
  · exact out_endOp prog
  · exact h.from_ y hy

theorem Free.cons {bad : Op → Bool} (hend : bad .end_ = false) {prog : List OpType}
    (hf : Free bad prog) : Free bad (endOp :: prog) := by
  intro x hx o ho
  rcases List.mem_cons.mp hx with rfl | hx
  · have : Op.end_ = o := Op.toByte_inj ho
    rw [← this]; exact hend
  · exact hf x hx o ho

theorem Kept.trans {a b c : List OpType} (h : Kept a b) (h' : Kept b c) : Kept a c := by
  obtain ⟨i1, e1, q1, q2, q3, q4, q5⟩ := h.shape
  obtain ⟨i2, e2, r1, r2, r3, r4, r5⟩ := h'.shape
  have hend : notEnd e1 = false := by unfold notEnd; rw [q2]; rfl
  have hc : code b = i1 := by rw [q1, code_end i1 [] hend, code_id q3]
  refine ⟨⟨i2, e2, r1, r2, r3, ?_, ?_⟩, ?_⟩
  · rw [r4, hc, q4]
  · rw [hc] at r5; omega
  · intro y hy
    refine (h'.from_ y hy).trans ?_
    intro z hz
    rcases List.mem_cons.mp hz with rfl | hz
    · exact out_endOp a
    · exact h.from_ z hz

theorem optimize_kept {fuel : Nat} {prog : List OpType} {rels : List Reloc}
    {r : List OpType × List Reloc × Bool} (hlab : ∃ y ∈ code prog, y.op = Op.label.toByte)
    (h : optimize fuel prog rels = .ok r) : Kept prog r.1 := by
  unfold optimize at h
  rw [Res.bind_eq_ok] at h
  obtain ⟨⟨p1, r1, e1⟩, h1, h⟩ := h
  rw [Res.bind_eq_ok] at h
  obtain ⟨⟨p2, r2, e2⟩, h2, h⟩ := h
  cases h
  have k1 : Kept prog p1 := pass_kept stringRound_ok hlab h1
  have k2 : Kept p1 p2 := pass_kept round_ok (k1.label hlab) h2
  exact k1.trans k2

/-- Enough steps for a program of `n` instructions. -/
def enough (n : Nat) : Nat := n + SETB + 2

theorem optimize_hang {fuel : Nat} {prog : List OpType} {rels : List Reloc}
    (hlab : ∃ y ∈ code prog, y.op = Op.label.toByte) (hf : Free udivOp prog)
    (hn : enough prog.length ≤ fuel) : optimize fuel prog rels ≠ .hang := by
  intro h
  unfold enough at hn
  unfold optimize at h
  cases h1 : pass stringRound fuel prog rels with
  | hang => exact pass_hang stringRound_ok hlab (hf.cons rfl) (by omega) h1
  | ub => rw [h1] at h; cases h
  | ok r =>
    obtain ⟨p1, r1, e1⟩ := r
    rw [h1] at h
    simp only [Res.ok_bind] at h
    have k1 : Kept prog p1 := pass_kept stringRound_ok hlab h1
    cases h2 : pass round fuel p1 r1 with
    | hang =>
      refine pass_hang round_ok (k1.label hlab) (k1.free made_udiv rfl hf) ?_ h2
      obtain ⟨init, e, q1, _, _, _, q5⟩ := k1.shape
      have := code_le prog
      rw [q1, List.length_append]
      simp only [List.length_cons, List.length_nil]
      omega
    | ub => rw [h2] at h; cases h
    | ok r => rw [h2] at h; cases h

theorem optimize_ub {fuel : Nat} {prog : List OpType} {rels : List Reloc}
    (hlab : ∃ y ∈ code prog, y.op = Op.label.toByte) (hf : Free failOp prog) :
    optimize fuel prog rels ≠ .ub := by
  intro h
  unfold optimize at h
  cases h1 : pass stringRound fuel prog rels with
  | ub => exact pass_ub stringRound_ok hlab (hf.cons rfl) h1
  | hang => rw [h1] at h; cases h
  | ok r =>
    obtain ⟨p1, r1, e1⟩ := r
    rw [h1] at h
    simp only [Res.ok_bind] at h
    have k1 : Kept prog p1 := pass_kept stringRound_ok hlab h1
    cases h2 : pass round fuel p1 r1 with
    | ub => exact pass_ub round_ok (k1.label hlab) (k1.free made_fail rfl hf) h2
    | hang => rw [h2] at h; cases h
    | ok r => rw [h2] at h; cases h

theorem optimize_mono {fuel : Nat} {prog : List OpType} {rels : List Reloc}
    (h : optimize fuel prog rels ≠ .hang) :
    optimize (fuel + 1) prog rels = optimize fuel prog rels := by
  unfold optimize at h ⊢
  cases h1 : pass stringRound fuel prog rels with
  | hang => rw [h1] at h; exact absurd rfl h
  | ub => rw [pass_mono stringRound_ok (by rw [h1]; nofun), h1]; rfl
  | ok r =>
    obtain ⟨p1, r1, e1⟩ := r
    rw [h1] at h
    rw [pass_mono stringRound_ok (by rw [h1]; nofun), h1]
    simp only [Res.ok_bind] at h ⊢
    cases h2 : pass round fuel p1 r1 with
    | hang => rw [h2] at h; exact absurd rfl h
    | ub => rw [pass_mono round_ok (by rw [h2]; nofun), h2]
    | ok r => rw [pass_mono round_ok (by rw [h2]; nofun), h2]

theorem optimize_stable {fuel : Nat} {prog : List OpType} {rels : List Reloc}
    (h : optimize fuel prog rels ≠ .hang) : ∀ k, optimize (fuel + k) prog rels = optimize fuel prog rels := by
  intro k
  induction k with
  | zero => rfl
  | succ k ih =>
    rw [← ih]
    exact optimize_mono (fuel := fuel + k) (by rw [ih]; exact h)

end Pas.Popt
