import Verif.Lemmas.Keep

/-! Running the same instruction at another program address and with another constant base. -/
namespace Pas

/-- The machine with the program counter moved by `k` and the constant base moved by `-ro`. -/
def shift (k ro : Word) (s : VM) : VM := { s with pc := s.pc + k, rop := s.rop - ro }

/-- Two computations have related outcomes. -/
def Res.Rel {α β : Type} (Q : α → β → Prop) : Res α → Res β → Prop
  | .ok a, .ok b => Q a b
  | .ub, .ub => True
  | .hang, .hang => True
  | _, _ => False

section
variable {α β : Type} {Q : α → β → Prop} {k ro : Word} {s1 : VM}

theorem shift_spb : (shift k ro s1).spb = s1.spb := rfl
theorem shift_sp : (shift k ro s1).sp = s1.sp := rfl
theorem shift_fp : (shift k ro s1).fp = s1.fp := rfl
theorem shift_csp : (shift k ro s1).csp = s1.csp := rfl
theorem shift_lsp : (shift k ro s1).lsp = s1.lsp := rfl
theorem shift_discard (n : Nat) : (shift k ro s1).discard n = shift k ro (s1.discard n) := rfl

theorem Rel_ok {a : α} {b : β} (h : Q a b) : Res.Rel Q (.ok a) (.ok b) := h

theorem Rel_ite {c : Prop} [Decidable c] {x y : Res α} {x' y' : Res β}
    (h1 : Res.Rel Q x x') (h2 : Res.Rel Q y y') :
    Res.Rel Q (if c then x else y) (if c then x' else y') := by
  split <;> assumption

theorem Rel_rd {i : Nat} {f : Word → Res α} {f' : Word → Res β}
    (h : ∀ w, Res.Rel Q (f w) (f' w)) :
    Res.Rel Q (s1.rd i >>= f) ((shift k ro s1).rd i >>= f') := by
  show Res.Rel Q ((if i < s1.words then _ else _) >>= f) ((if i < s1.words then _ else _) >>= f')
  split
  · exact h _
  · trivial

theorem Rel_rdB {i : Nat} {f : Byte → Res α} {f' : Byte → Res β}
    (h : ∀ w, Res.Rel Q (f w) (f' w)) :
    Res.Rel Q (s1.rdB i >>= f) ((shift k ro s1).rdB i >>= f') := by
  show Res.Rel Q ((if i < 2 * s1.words then _ else _) >>= f)
    ((if i < 2 * s1.words then _ else _) >>= f')
  split
  · exact h _
  · trivial

theorem Rel_getStack {a : Word} {f : Word → Res α} {f' : Word → Res β}
    (h : ∀ w, Res.Rel Q (f w) (f' w)) :
    Res.Rel Q (s1.getStack a >>= f) ((shift k ro s1).getStack a >>= f') := Rel_rd h

theorem Rel_tos {i : Nat} {f : Word → Res α} {f' : Word → Res β}
    (h : ∀ w, Res.Rel Q (f w) (f' w)) :
    Res.Rel Q (s1.tos i >>= f) ((shift k ro s1).tos i >>= f') := by
  show Res.Rel Q ((if i ≤ s1.top then _ else _) >>= f) ((if i ≤ s1.top then _ else _) >>= f')
  split
  · exact Rel_rd h
  · trivial

theorem Rel_wr {i : Nat} {w : Word} {f : VM → Res α} {f' : VM → Res β}
    (h : ∀ s2, s2.pc = s1.pc → Res.Rel Q (f s2) (f' (shift k ro s2))) :
    Res.Rel Q (s1.wr i w >>= f) ((shift k ro s1).wr i w >>= f') := by
  show Res.Rel Q ((if i < s1.words then _ else _) >>= f) ((if i < s1.words then _ else _) >>= f')
  split
  · exact h { s1 with mem := updW s1.mem i w } rfl
  · trivial

theorem Rel_wrB {i : Nat} {w : Byte} {f : VM → Res α} {f' : VM → Res β}
    (h : ∀ s2, s2.pc = s1.pc → Res.Rel Q (f s2) (f' (shift k ro s2))) :
    Res.Rel Q (s1.wrB i w >>= f) ((shift k ro s1).wrB i w >>= f') := by
  show Res.Rel Q ((if i < 2 * s1.words then _ else _) >>= f)
    ((if i < 2 * s1.words then _ else _) >>= f')
  split
  · exact h { s1 with mem := updB s1.mem i w } rfl
  · trivial

theorem Rel_setTos {i : Nat} {w : Word} {f : VM → Res α} {f' : VM → Res β}
    (h : ∀ s2, s2.pc = s1.pc → Res.Rel Q (f s2) (f' (shift k ro s2))) :
    Res.Rel Q (s1.setTos i w >>= f) ((shift k ro s1).setTos i w >>= f') := by
  show Res.Rel Q ((if i ≤ s1.top then _ else _) >>= f) ((if i ≤ s1.top then _ else _) >>= f')
  split
  · exact Rel_wr h
  · trivial

theorem Rel_putStack {a w : Word} {f : VM → Res α} {f' : VM → Res β}
    (h : ∀ s2, s2.pc = s1.pc → Res.Rel Q (f s2) (f' (shift k ro s2))) :
    Res.Rel Q (s1.putStack w a >>= f) ((shift k ro s1).putStack w a >>= f') := Rel_wr h

theorem Rel_push {w : Word} {f : VM → Res α} {f' : VM → Res β}
    (h : ∀ s2, s2.pc = s1.pc → Res.Rel Q (f s2) (f' (shift k ro s2))) :
    Res.Rel Q (s1.push w >>= f) ((shift k ro s1).push w >>= f') :=
  Rel_wr (s1 := { s1 with sp := s1.sp + 2#16 }) h

theorem Rel_pop {f : Word × VM → Res α} {f' : Word × VM → Res β}
    (h : ∀ w s2, s2.pc = s1.pc → Res.Rel Q (f (w, s2)) (f' (w, shift k ro s2))) :
    Res.Rel Q (s1.pop >>= f) ((shift k ro s1).pop >>= f') := by
  unfold VM.pop
  simp only [bind_assoc]
  exact Rel_rd fun w => h w { s1 with sp := s1.sp - 2#16 } rfl

theorem chase_shift (s : VM) (n : Nat) (f : Word) : chase (shift k ro s) n f = chase s n f := by
  induction n generalizing f with
  | zero => rfl
  | succ n ih => simp only [chase, ih]; rfl

theorem base_shift (s : VM) (l : Byte) (o : Int) :
    getBaseAddress (shift k ro s) l o = getBaseAddress s l o := by
  simp only [getBaseAddress, chase_shift]; rfl

theorem Rel_base {l : Byte} {o : Int} {f : Word → Res α} {f' : Word → Res β}
    (h : ∀ w, Res.Rel Q (f w) (f' w)) :
    Res.Rel Q (getBaseAddress s1 l o >>= f) (getBaseAddress (shift k ro s1) l o >>= f') := by
  rw [base_shift]
  unfold getBaseAddress
  rcases chase_cases s1 l.toNat s1.fp with ⟨g, hg⟩ | hg
  · rw [hg]; exact h _
  · rw [hg]; trivial

theorem Rel_pushBlock {n : Nat} : ∀ {s1 : VM} {a : Word} {f : VM → Res α} {f' : VM → Res β}
    (_ : ∀ s2, s2.pc = s1.pc → Res.Rel Q (f s2) (f' (shift k ro s2))),
    Res.Rel Q (pushBlock s1 a n >>= f) (pushBlock (shift k ro s1) a n >>= f') := by
  induction n using Nat.strongRecOn with
  | _ n ih =>
    intro s1 a f f' h
    match n with
    | 0 => exact h _ rfl
    | 1 =>
      simp only [pushBlock, bind_assoc]
      exact Rel_rdB fun w => Rel_push h
    | n + 2 =>
      simp only [pushBlock, bind_assoc]
      exact Rel_getStack fun w => Rel_push fun s2 e2 => ih n (by omega) fun s3 e3 =>
        h s3 (e3.trans e2)

theorem Rel_storeBlock {n : Nat} : ∀ {s1 : VM} {a : Word} {f : VM → Res α} {f' : VM → Res β}
    (_ : ∀ s2, s2.pc = s1.pc → Res.Rel Q (f s2) (f' (shift k ro s2))),
    Res.Rel Q (storeBlock s1 a n >>= f) (storeBlock (shift k ro s1) a n >>= f') := by
  induction n using Nat.strongRecOn with
  | _ n ih =>
    intro s1 a f f' h
    match n with
    | 0 => exact h _ rfl
    | 1 =>
      simp only [storeBlock, bind_assoc]
      exact Rel_tos fun w => Rel_wrB h
    | n + 2 =>
      simp only [storeBlock, bind_assoc]
      exact Rel_tos fun w => Rel_putStack fun s2 e2 => ih n (by omega) fun s3 e3 =>
        h s3 (e3.trans e2)

end

/-- Same report, shifted state, and when there is no error the program counter is `a` or `b`. -/
abbrev Out (k ro a b : Word) (r r' : Res (Nat × VM)) : Prop :=
  Res.Rel (fun x y => y.1 = x.1 ∧ y.2 = shift k ro x.2 ∧
    (x.1 = eNOERROR → x.2.pc = a ∨ x.2.pc = b)) r r'

theorem Out_to {k ro a b : Word} {s s' : VM} {e : Nat} (he : s' = shift k ro s)
    (h : e = eNOERROR → s.pc = a ∨ s.pc = b) :
    Out k ro a b (.ok (e, s)) (.ok (e, s')) := ⟨rfl, he, h⟩

theorem done8_shift (k ro : Word) (s : VM) {a b : Word} (h : s.pc + 1#16 = a) :
    Out k ro a b (done8 s) (done8 (shift k ro s)) := by
  refine ⟨rfl, ?_, fun _ => .inl h⟩
  simp only [shift, BitVec.add_assoc, BitVec.add_comm k]
theorem done24_shift (k ro : Word) (s : VM) {a b : Word} (h : s.pc + 3#16 = a) :
    Out k ro a b (done24 s) (done24 (shift k ro s)) := by
  refine ⟨rfl, ?_, fun _ => .inl h⟩
  simp only [shift, BitVec.add_assoc, BitVec.add_comm k]
theorem done32_shift (k ro : Word) (s : VM) {a b : Word} (h : s.pc + 4#16 = a) :
    Out k ro a b (done32 s) (done32 (shift k ro s)) := by
  refine ⟨rfl, ?_, fun _ => .inl h⟩
  simp only [shift, BitVec.add_assoc, BitVec.add_comm k]

/-- Step through the primitive operations of one instruction run twice. -/
macro "shift_steps" : tactic => `(tactic|
  repeat' with_reducible first
    | assumption
    | refine Rel_pop (fun _ _ _ => ?_)
    | refine Rel_tos (fun _ => ?_)
    | refine Rel_getStack (fun _ => ?_)
    | refine Rel_rdB (fun _ => ?_)
    | refine Rel_rd (fun _ => ?_)
    | refine Rel_base (fun _ => ?_)
    | refine Rel_setTos (fun _ _ => ?_)
    | refine Rel_push (fun _ _ => ?_)
    | refine Rel_putStack (fun _ _ => ?_)
    | refine Rel_wrB (fun _ _ => ?_)
    | refine Rel_wr (fun _ _ => ?_)
    | refine Rel_pushBlock (fun _ _ => ?_)
    | refine Rel_storeBlock (fun _ _ => ?_)
    | refine Rel_ite ?_ ?_
    | refine done8_shift _ _ _ ?_
    | refine done24_shift _ _ _ ?_
    | refine done32_shift _ _ _ ?_
    | refine Out_to rfl ?_
    | simp only [shift_spb, shift_sp, shift_csp, shift_fp, shift_lsp, shift_discard])

theorem binop_shift (k ro b : Word) (s : VM) (f : Word → Word → Res Word) :
    Out k ro (s.pc + 1#16) b (binop s f) (binop (shift k ro s) f) := by
  unfold binop
  refine Rel_pop fun b s2 h2 => Rel_tos fun a => ?_
  cases f a b with
  | ok r => exact Rel_setTos fun s3 h3 => done8_shift _ _ _ (by rw [h3, h2])
  | ub => trivial
  | hang => trivial

theorem unop_shift (k ro b : Word) (s : VM) (f : Word → Word) :
    Out k ro (s.pc + 1#16) b (unop s f) (unop (shift k ro s) f) := by
  unfold unop
  exact Rel_tos fun a => Rel_setTos fun s3 h3 => done8_shift _ _ _ (by rw [h3])

theorem cmpz_shift (k ro b : Word) (s : VM) (f : Int → Bool) :
    Out k ro (s.pc + 1#16) b (cmpz s f) (cmpz (shift k ro s) f) := by
  unfold cmpz
  exact Rel_pop fun b s2 h2 => Rel_push fun s3 h3 => done8_shift _ _ _ (by rw [h3, h2])

theorem jump1_shift (k ro : Word) (s : VM) (t : Word) (f : Int → Bool) :
    Out k ro (s.pc + 3#16) t (jump1 s t f) (jump1 (shift k ro s) (t + k) f) := by
  unfold jump1
  exact Rel_pop fun b s2 h2 => Rel_ite (Out_to rfl fun _ => .inr rfl)
    (done24_shift _ _ _ (by rw [h2]))

theorem jump2_shift (k ro : Word) (s : VM) (t : Word) (f : Word → Word → Bool) :
    Out k ro (s.pc + 3#16) t (jump2 s t f) (jump2 (shift k ro s) (t + k) f) := by
  unfold jump2
  exact Rel_pop fun b s2 h2 => Rel_pop fun c s3 h3 => Rel_ite (Out_to rfl fun _ => .inr rfl)
    (done24_shift _ _ _ (by rw [h3, h2]))

theorem pexec8_shift (k ro b : Word) (s : VM) (op : Option Op) (hr : op ≠ some .ret) :
    Out k ro (s.pc + 1#16) b (pexec8 s op) (pexec8 (shift k ro s) op) := by
  unfold pexec8
  split
  all_goals first
    | with_reducible exact unop_shift _ _ _ _ _
    | with_reducible exact binop_shift _ _ _ _ _
    | with_reducible exact cmpz_shift _ _ _ _ _
    | skip
  case h_46 => exact absurd rfl hr
  all_goals shift_steps
  all_goals first
    | (intro h; exact absurd h (by decide))
    | rfl
    | simp only [VM.discard, *]

/-- The routines outside the instruction interpreter do not look at the program counter or at
the constant base, and leave both alone. -/
structure Lib.NoPc (lib : Lib) : Prop where
  float : ∀ k ro s b, Out k ro s.pc s.pc (lib.floatOps s b) (lib.floatOps (shift k ro s) b)
  set : ∀ k ro s b, Out k ro s.pc s.pc (lib.setOps s b) (lib.setOps (shift k ro s) b)
  os : ∀ k ro s b, Out k ro s.pc s.pc (lib.osOps s b) (lib.osOps (shift k ro s) b)
  long : ∀ k ro s b, Out k ro s.pc s.pc (lib.longOps8 s b) (lib.longOps8 (shift k ro s) b)
  str : ∀ k ro s w, Out k ro s.pc s.pc (lib.strOps s w) (lib.strOps (shift k ro s) w)
  io : ∀ k ro s w, Out k ro s.pc s.pc (lib.sysIo s w) (lib.sysIo (shift k ro s) w)

theorem Out.weak {k ro a b : Word} {r r' : Res (Nat × VM)} (h : Out k ro a a r r') :
    Out k ro a b r r' := by
  cases r <;> cases r' <;> first | exact h | exact ⟨h.1, h.2.1, fun e => .inl ((h.2.2 e).elim id id)⟩

theorem pexec16_shift {lib : Lib} (hl : lib.NoPc) (k ro b : Word) (s : VM) (op : Option Op)
    (a : Byte) :
    Out k ro (s.pc + 2#16) b (pexec16 lib s op a) (pexec16 lib (shift k ro s) op a) := by
  have e : ({ shift k ro s with pc := (shift k ro s).pc + 2#16 } : VM) =
      shift k ro { s with pc := s.pc + 2#16 } := by
    simp only [shift, BitVec.add_assoc, BitVec.add_comm k]
  unfold pexec16
  simp only [e]
  split
  case h_1 => exact Rel_push fun s2 h2 => Out_to rfl fun _ => .inl h2
  case h_2 => exact Rel_push fun s2 h2 => Out_to rfl fun _ => .inl h2
  case h_3 => exact (hl.float k ro { s with pc := s.pc + 2#16 } a).weak
  case h_4 => exact (hl.set k ro { s with pc := s.pc + 2#16 } a).weak
  case h_5 => exact (hl.os k ro { s with pc := s.pc + 2#16 } a).weak
  case h_6 => exact (hl.long k ro { s with pc := s.pc + 2#16 } a).weak
  case h_7 => exact Out_to rfl fun _ => .inl rfl

/-- The 16-bit operand moved according to what it denotes. -/
def movedArg (k ro w : Word) : Op → Word
  | .jmp | .jequz | .jneqz | .jltz | .jgtez | .jgtz | .jltez
  | .jequ | .jneq | .jlt | .jgte | .jgt | .jlte
  | .jult | .jugte | .jugt | .julte => w + k
  | .lac => w + ro
  | _ => w

/-- The jump instructions. -/
def isJump : Op → Bool
  | .jmp | .jequz | .jneqz | .jltz | .jgtez | .jgtz | .jltez
  | .jequ | .jneq | .jlt | .jgte | .jgt | .jlte
  | .jult | .jugte | .jugt | .julte => true
  | _ => false

theorem pexec24_shift {lib : Lib} (hl : lib.NoPc) (k ro : Word) (s : VM) (op : Op) (w : Word) :
    Out k ro (s.pc + 3#16) (if isJump op then w else s.pc + 3#16) (pexec24 lib s (some op) w)
      (pexec24 lib (shift k ro s) (some op) (movedArg k ro w op)) := by
  cases op
  all_goals simp only [pexec24, movedArg, isJump, if_true, Bool.false_eq_true, if_false]
  all_goals first
    | with_reducible exact jump1_shift _ _ _ _ _
    | with_reducible exact jump2_shift _ _ _ _ _
    | skip
  case lac =>
    have : w + ro + (shift k ro s).rop = w + s.rop := by
      show w + ro + (s.rop - ro) = w + s.rop
      bv_omega
    rw [this]
    exact Rel_push fun s2 h2 => done24_shift _ _ _ (by rw [h2])
  case jmp => exact Out_to rfl fun _ => .inr rfl
  case strlib =>
    have := hl.str k ro s w
    cases h : lib.strOps s w <;> cases h' : lib.strOps (shift k ro s) w <;> rw [h, h'] at this <;>
      try first | exact this | exact this.elim
    rename_i x y
    obtain ⟨h1, h2, h3⟩ := this
    refine ⟨h1, ?_, fun e => .inl ?_⟩
    · simp only [h2, shift, BitVec.add_assoc, BitVec.add_comm k]
    · show x.2.pc + 3#16 = _
      rw [(h3 e).elim id id]
  case sysio =>
    have := hl.io k ro s w
    cases h : lib.sysIo s w <;> cases h' : lib.sysIo (shift k ro s) w <;> rw [h, h'] at this <;>
      try first | exact this | exact this.elim
    rename_i x y
    obtain ⟨h1, h2, h3⟩ := this
    refine ⟨h1, ?_, fun e => .inl ?_⟩
    · simp only [h2, shift, BitVec.add_assoc, BitVec.add_comm k]
    · show x.2.pc + 3#16 = _
      rw [(h3 e).elim id id]
  case inds =>
    exact done24_shift k ro { s with sp := s.sp + BitVec.ofInt 16 (signExtend16 w) } rfl
  case incs =>
    exact done24_shift k ro { s with csp := s.csp + BitVec.ofInt 16 (signExtend16 w) } rfl
  all_goals shift_steps
  all_goals first
    | (refine Out_to ?_ fun _ => .inl rfl
       simp only [shift, BitVec.add_assoc, BitVec.add_comm k])
    | rfl
    | simp only [VM.discard, *]

theorem pexec32_shift {lib : Lib} (k ro b : Word) (s : VM) (op : Op) (a : Byte) (w : Word)
    (h1 : op ≠ .pcal) (h2 : op ≠ .longop24) :
    Out k ro (s.pc + 4#16) b (pexec32 lib s (some op) a w)
      (pexec32 lib (shift k ro s) (some op) a w) := by
  cases op
  case pcal => exact absurd rfl h1
  case longop24 => exact absurd rfl h2
  all_goals simp only [pexec32]
  all_goals shift_steps
  all_goals first
    | (refine Out_to ?_ fun _ => .inl rfl
       simp only [shift, BitVec.add_assoc, BitVec.add_comm k])
    | rfl
    | simp only [VM.discard, *]

end Pas
