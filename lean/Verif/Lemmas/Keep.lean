import Verif.Lemmas.VM

/-! What no instruction ever changes: the size of the memory and the region registers; the
static level register stays a byte. -/
namespace Pas

/-- Every normal outcome of `r` satisfies `p`. -/
def Res.All {α : Type} (p : α → Prop) : Res α → Prop
  | .ok a => p a
  | .ub => True
  | .hang => True

theorem Res.All.ok {α : Type} {p : α → Prop} {r : Res α} (h : Res.All p r) {a : α}
    (e : r = .ok a) : p a := by subst e; exact h

/-- The memory map registers are the same and the level register remains a byte. -/
structure Keep (s s' : VM) : Prop where
  words : s'.words = s.words
  spb : s'.spb = s.spb
  hpb : s'.hpb = s.hpb
  rop : s'.rop = s.rop
  strSize : s'.strSize = s.strSize
  roSize : s'.roSize = s.roSize
  stkSize : s'.stkSize = s.stkSize
  hpSize : s'.hpSize = s.hpSize
  lsp : s.lsp.toNat < 256 → s'.lsp.toNat < 256

theorem Keep.refl (s : VM) : Keep s s := ⟨rfl, rfl, rfl, rfl, rfl, rfl, rfl, rfl, id⟩

theorem Keep.trans {a b c : VM} (h : Keep a b) (h' : Keep b c) : Keep a c :=
  ⟨h'.words.trans h.words, h'.spb.trans h.spb, h'.hpb.trans h.hpb, h'.rop.trans h.rop,
   h'.strSize.trans h.strSize, h'.roSize.trans h.roSize, h'.stkSize.trans h.stkSize,
   h'.hpSize.trans h.hpSize, fun x => h'.lsp (h.lsp x)⟩

/-- Changing memory and the moving registers keeps. -/
theorem Keep.upd {a b : VM} (h : Keep a b) (m : Nat → Word) (sp csp hsp fp pc : Word) (fc : Option Nat) :
    Keep a { b with mem := m, sp := sp, csp := csp, hsp := hsp, fp := fp, pc := pc,
                    freeChunks := fc } :=
  ⟨h.words, h.spb, h.hpb, h.rop, h.strSize, h.roSize, h.stkSize, h.hpSize, h.lsp⟩

theorem Keep.updL {a b : VM} (h : Keep a b) (m : Nat → Word) (sp csp hsp fp pc : Word) (fc : Option Nat) (l : Word)
    (hl : l.toNat < 256) :
    Keep a { b with mem := m, sp := sp, csp := csp, hsp := hsp, fp := fp, pc := pc,
                    freeChunks := fc, lsp := l } :=
  ⟨h.words, h.spb, h.hpb, h.rop, h.strSize, h.roSize, h.stkSize, h.hpSize, fun _ => hl⟩

theorem shr8_lt (w : Word) : (w >>> 8).toNat < 256 := by
  rw [BitVec.toNat_ushiftRight, Nat.shiftRight_eq_div_pow]
  have := w.isLt
  omega

theorem All_ok {α : Type} {p : α → Prop} {a : α} (h : p a) : Res.All p (.ok a) := h
theorem All_ite {α : Type} {p : α → Prop} {c : Prop} [Decidable c] {x y : Res α}
    (h1 : Res.All p x) (h2 : Res.All p y) : Res.All p (if c then x else y) := by
  split <;> assumption

section
variable {β : Type} {Q : β → Prop} {s0 s1 : VM}

theorem All_rd {i : Nat} {f : Word → Res β} (h : ∀ w, Res.All Q (f w)) :
    Res.All Q (s1.rd i >>= f) := by
  unfold VM.rd; split
  · exact h _
  · trivial

theorem All_rdB {i : Nat} {f : Byte → Res β} (h : ∀ w, Res.All Q (f w)) :
    Res.All Q (s1.rdB i >>= f) := by
  unfold VM.rdB; split
  · exact h _
  · trivial

theorem All_getStack {a : Word} {f : Word → Res β} (h : ∀ w, Res.All Q (f w)) :
    Res.All Q (s1.getStack a >>= f) := All_rd h

theorem All_tos {k : Nat} {f : Word → Res β} (h : ∀ w, Res.All Q (f w)) :
    Res.All Q (s1.tos k >>= f) := by
  unfold VM.tos; split
  · exact All_rd h
  · trivial

theorem All_wr {i : Nat} {w : Word} {f : VM → Res β} (hk : Keep s0 s1)
    (h : ∀ s2, Keep s0 s2 → Res.All Q (f s2)) : Res.All Q (s1.wr i w >>= f) := by
  unfold VM.wr; split
  · exact h _ (hk.upd _ _ _ _ _ _ _)
  · trivial

theorem All_wrB {i : Nat} {w : Byte} {f : VM → Res β} (hk : Keep s0 s1)
    (h : ∀ s2, Keep s0 s2 → Res.All Q (f s2)) : Res.All Q (s1.wrB i w >>= f) := by
  unfold VM.wrB; split
  · exact h _ (hk.upd _ _ _ _ _ _ _)
  · trivial

theorem All_setTos {k : Nat} {w : Word} {f : VM → Res β} (hk : Keep s0 s1)
    (h : ∀ s2, Keep s0 s2 → Res.All Q (f s2)) : Res.All Q (s1.setTos k w >>= f) := by
  unfold VM.setTos; split
  · exact All_wr hk h
  · trivial

theorem All_putStack {a w : Word} {f : VM → Res β} (hk : Keep s0 s1)
    (h : ∀ s2, Keep s0 s2 → Res.All Q (f s2)) : Res.All Q (s1.putStack w a >>= f) := All_wr hk h

theorem All_push {w : Word} {f : VM → Res β} (hk : Keep s0 s1)
    (h : ∀ s2, Keep s0 s2 → Res.All Q (f s2)) : Res.All Q (s1.push w >>= f) := by
  unfold VM.push
  exact All_wr (hk.upd _ _ _ _ _ _ _) h

theorem All_pop {f : Word × VM → Res β} (hk : Keep s0 s1)
    (h : ∀ w s2, Keep s0 s2 → Res.All Q (f (w, s2))) : Res.All Q (s1.pop >>= f) := by
  unfold VM.pop VM.rd; split
  · exact h _ _ (hk.upd _ _ _ _ _ _ _)
  · trivial

theorem chase_cases (s : VM) (n : Nat) (f : Word) : (∃ g, chase s n f = .ok g) ∨ chase s n f = .ub := by
  induction n generalizing f with
  | zero => exact .inl ⟨_, rfl⟩
  | succ n ih =>
    simp only [chase, VM.getStack, VM.rd]
    split
    · exact ih _
    · exact .inr rfl

theorem All_base {l : Byte} {o : Int} {f : Word → Res β} (h : ∀ w, Res.All Q (f w)) :
    Res.All Q (getBaseAddress s1 l o >>= f) := by
  unfold getBaseAddress
  rcases chase_cases s1 l.toNat s1.fp with ⟨g, hg⟩ | hg
  · rw [hg]; exact h _
  · rw [hg]; trivial

theorem All_pushBlock {n : Nat} : ∀ {a : Word} {f : VM → Res β} {s1 : VM} (_ : Keep s0 s1)
    (_ : ∀ s2, Keep s0 s2 → Res.All Q (f s2)), Res.All Q (pushBlock s1 a n >>= f) := by
  induction n using Nat.strongRecOn with
  | _ n ih =>
    intro a f s1 hk h
    match n with
    | 0 => exact h _ hk
    | 1 =>
      simp only [pushBlock, bind_assoc]
      exact All_rdB fun w => All_push hk h
    | n + 2 =>
      simp only [pushBlock, bind_assoc]
      exact All_getStack fun w => All_push hk fun s2 hk2 => ih n (by omega) hk2 h

theorem All_storeBlock {n : Nat} : ∀ {a : Word} {f : VM → Res β} {s1 : VM} (_ : Keep s0 s1)
    (_ : ∀ s2, Keep s0 s2 → Res.All Q (f s2)), Res.All Q (storeBlock s1 a n >>= f) := by
  induction n using Nat.strongRecOn with
  | _ n ih =>
    intro a f s1 hk h
    match n with
    | 0 => exact h _ hk
    | 1 =>
      simp only [storeBlock, bind_assoc]
      exact All_tos fun w => All_wrB hk h
    | n + 2 =>
      simp only [storeBlock, bind_assoc]
      exact All_tos fun w => All_putStack hk fun s2 hk2 => ih n (by omega) hk2 h

theorem All_findFrame {l n : Nat} : ∀ {a : Word} {f : Option Word → Res β}
    (_ : ∀ w, Res.All Q (f w)), Res.All Q (findFrame s1 l n a >>= f) := by
  induction n with
  | zero => intro a f h; trivial
  | succ n ih =>
    intro a f h
    simp only [findFrame, bind_assoc]
    refine All_rd fun w => ?_
    split
    · exact h _
    · split
      · exact h _
      · simp only [bind_assoc]
        exact All_rd fun w => ih h

end

/-- Outcome of an instruction: only kept things. -/
abbrev KeepR (s0 : VM) (r : Res (Nat × VM)) : Prop := Res.All (fun p => Keep s0 p.2) r

theorem All_done8 {s0 s : VM} (h : Keep s0 s) : KeepR s0 (done8 s) := h.upd _ _ _ _ _ _ _
theorem All_done24 {s0 s : VM} (h : Keep s0 s) : KeepR s0 (done24 s) := h.upd _ _ _ _ _ _ _
theorem All_done32 {s0 s : VM} (h : Keep s0 s) : KeepR s0 (done32 s) := h.upd _ _ _ _ _ _ _
theorem Keep_discard {s0 s : VM} {n : Nat} (h : Keep s0 s) : Keep s0 (s.discard n) :=
  h.upd _ _ _ _ _ _ _
theorem All_okk {s0 s : VM} {n : Nat} (h : Keep s0 s) : KeepR s0 (.ok (n, s)) := h

/-- Step through the primitive operations of one instruction. -/
macro "keep_steps" t:term : tactic => `(tactic|
  repeat' with_reducible first
    | assumption
    | exact Keep.refl _
    | refine All_pop (s0 := $t) ?_ (fun _ _ _ => ?_)
    | refine All_tos (fun _ => ?_)
    | refine All_getStack (fun _ => ?_)
    | refine All_rdB (fun _ => ?_)
    | refine All_rd (fun _ => ?_)
    | refine All_base (fun _ => ?_)
    | refine All_setTos (s0 := $t) ?_ (fun _ _ => ?_)
    | refine All_push (s0 := $t) ?_ (fun _ _ => ?_)
    | refine All_putStack (s0 := $t) ?_ (fun _ _ => ?_)
    | refine All_wrB (s0 := $t) ?_ (fun _ _ => ?_)
    | refine All_wr (s0 := $t) ?_ (fun _ _ => ?_)
    | refine All_pushBlock (s0 := $t) ?_ (fun _ _ => ?_)
    | refine All_storeBlock (s0 := $t) ?_ (fun _ _ => ?_)
    | refine All_ite ?_ ?_
    | refine All_done8 ?_
    | refine All_done24 ?_
    | refine All_done32 ?_
    | refine Keep_discard ?_
    | refine All_okk ?_
    | refine Keep.upd ?_ _ _ _ _ _ _ _)

theorem binop_keep (s : VM) (f : Word → Word → Res Word) : KeepR s (binop s f) := by
  unfold binop
  refine All_pop (Keep.refl s) fun b s2 h2 => All_tos fun a => ?_
  cases f a b with
  | ok r => exact All_setTos h2 fun s3 h3 => h3.upd _ _ _ _ _ _ _
  | ub => trivial
  | hang => trivial

theorem unop_keep (s : VM) (f : Word → Word) : KeepR s (unop s f) := by
  unfold unop
  exact All_tos fun a => All_setTos (Keep.refl s) fun s3 h3 => h3.upd _ _ _ _ _ _ _

theorem cmpz_keep (s : VM) (f : Int → Bool) : KeepR s (cmpz s f) := by
  unfold cmpz
  exact All_pop (Keep.refl s) fun b s2 h2 => All_push h2 fun s3 h3 => h3.upd _ _ _ _ _ _ _

theorem jump1_keep (s : VM) (t : Word) (f : Int → Bool) : KeepR s (jump1 s t f) := by
  unfold jump1
  exact All_pop (Keep.refl s) fun b s2 h2 =>
    All_ite (h2.upd _ _ _ _ _ _ _) (h2.upd _ _ _ _ _ _ _)

theorem jump2_keep (s : VM) (t : Word) (f : Word → Word → Bool) : KeepR s (jump2 s t f) := by
  unfold jump2
  exact All_pop (Keep.refl s) fun b s2 h2 => All_pop h2 fun b s2 h2 =>
    All_ite (h2.upd _ _ _ _ _ _ _) (h2.upd _ _ _ _ _ _ _)

theorem pexec8_keep (s : VM) (op : Option Op) : KeepR s (pexec8 s op) := by
  have hs := Keep.refl s
  unfold pexec8
  split
  all_goals first
    | with_reducible exact unop_keep _ _
    | with_reducible exact binop_keep _ _
    | with_reducible exact cmpz_keep _ _
    | skip
  case h_46 =>
    exact All_pop hs fun w s2 h2 =>
      All_pop (h2.updL _ _ _ _ _ _ _ _ (shr8_lt w)) fun w s3 h3 =>
      All_pop (h3.upd _ _ _ _ _ _ _) fun w s4 h4 =>
      All_pop (h4.upd _ _ _ _ _ _ _) fun w s5 h5 => h5.upd _ _ _ _ _ _ _
  all_goals keep_steps s

/-- What the routines outside this model's instruction interpreter must respect: they do not
touch the memory map or the static level register. -/
structure Lib.Keeps (lib : Lib) : Prop where
  float : ∀ s b, KeepR s (lib.floatOps s b)
  set : ∀ s b, KeepR s (lib.setOps s b)
  os : ∀ s b, KeepR s (lib.osOps s b)
  long : ∀ s b, KeepR s (lib.longOps8 s b)
  str : ∀ s w, KeepR s (lib.strOps s w)
  io : ∀ s w, KeepR s (lib.sysIo s w)
  long24 : ∀ s b w, KeepR s (lib.longOps24 s b w)

theorem KeepR.trans {s0 s1 : VM} (h : Keep s0 s1) {r : Res (Nat × VM)} (hr : KeepR s1 r) :
    KeepR s0 r := by
  cases r with
  | ok p => exact h.trans hr
  | ub => trivial
  | hang => trivial

theorem All_lib {s0 s1 : VM} (h : Keep s0 s1) {r : Res (Nat × VM)} (hr : KeepR s1 r)
    {f : Nat × VM → Res (Nat × VM)}
    (hf : ∀ n s2, Keep s0 s2 → KeepR s0 (f (n, s2))) : KeepR s0 (r >>= f) := by
  cases r with
  | ok p => exact hf _ _ (h.trans hr)
  | ub => trivial
  | hang => trivial

theorem pexec16_keep {lib : Lib} (hl : lib.Keeps) (s : VM) (op : Option Op) (b : Byte) :
    KeepR s (pexec16 lib s op b) := by
  have hs : Keep s { s with pc := s.pc + 2#16 } := (Keep.refl s).upd _ _ _ _ _ _ _
  unfold pexec16
  dsimp only
  split
  · keep_steps s
  · keep_steps s
  · exact KeepR.trans hs (hl.float _ _)
  · exact KeepR.trans hs (hl.set _ _)
  · exact KeepR.trans hs (hl.os _ _)
  · exact KeepR.trans hs (hl.long _ _)
  · exact hs

theorem pexec24_keep {lib : Lib} (hl : lib.Keeps) (s : VM) (op : Option Op) (w : Word) :
    KeepR s (pexec24 lib s op w) := by
  have hs := Keep.refl s
  unfold pexec24
  split
  all_goals first
    | with_reducible exact jump1_keep _ _ _
    | with_reducible exact jump2_keep _ _ _
    | skip
  all_goals keep_steps s
  · exact All_lib hs (hl.str _ _) fun n s2 h => h.upd _ _ _ _ _ _ _
  · exact All_lib hs (hl.io _ _) fun n s2 h => h.upd _ _ _ _ _ _ _

theorem procedureCall_keep (s : VM) (b : Byte) : KeepR s (procedureCall s b) := by
  have hs := Keep.refl s
  unfold procedureCall
  refine All_ite hs ?_
  refine All_findFrame fun w => ?_
  cases w with
  | none => exact hs
  | some a =>
    refine All_wr (hs.upd _ _ _ _ _ _ _) fun s2 h2 => ?_
    refine All_wr h2 fun s3 h3 => ?_
    refine All_wr h3 fun s4 h4 => ?_
    refine All_wr h4 fun s5 h5 => ?_
    refine All_wr h5 fun s6 h6 => ?_
    refine h6.updL _ _ _ _ _ _ _ _ ?_
    rw [BitVec.toNat_setWidth]
    have := b.isLt
    omega

theorem pexec32_keep {lib : Lib} (hl : lib.Keeps) (s : VM) (op : Option Op) (b : Byte) (w : Word) :
    KeepR s (pexec32 lib s op b w) := by
  have hs := Keep.refl s
  unfold pexec32
  split
  all_goals keep_steps s
  · exact All_lib hs (procedureCall_keep s b) fun n s2 h => h.upd _ _ _ _ _ _ _
  · exact hl.long24 _ _ _

theorem All_fetch {β : Type} {Q : β → Prop} {code : List Byte} {a : Nat} {f : Byte → Res β}
    (h : ∀ w, Res.All Q (f w)) : Res.All Q (fetch code a >>= f) := by
  unfold fetch
  split
  · exact h _
  · trivial

theorem execute_keep {lib : Lib} (hl : lib.Keeps) (code : List Byte) (maxpc : Word) (s : VM) :
    KeepR s (execute lib code maxpc s) := by
  unfold execute
  refine All_ite (Keep.refl s) (All_fetch fun b => ?_)
  refine All_ite (All_fetch fun b1 => ?_) (All_ite (All_fetch fun b1 => All_fetch fun b2 => ?_) ?_)
  · refine All_ite (All_fetch fun b2 => All_fetch fun b3 => ?_) ?_
    · exact pexec32_keep hl _ _ _ _
    · exact pexec16_keep hl _ _ _
  · exact pexec24_keep hl _ _ _
  · exact pexec8_keep _ _

theorem runFor_keep {lib : Lib} (hl : lib.Keeps) (code : List Byte) (maxpc : Word) (k : Nat) :
    ∀ s, KeepR s (runFor lib code maxpc k s) := by
  induction k with
  | zero => intro s; exact Keep.refl s
  | succ k ih =>
    intro s
    unfold runFor
    refine All_lib (Keep.refl s) (execute_keep hl code maxpc s) fun n s2 h => ?_
    exact All_ite h (KeepR.trans h (ih s2))

end Pas
