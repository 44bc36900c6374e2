import Verif.Lemmas.FilesOnly

/-! Only ALLOCFILE and FREEFILE change which file numbers are in use. -/
namespace Pas.FileUse
open Pas.SysIo Pas.Eff

/-- The same file numbers are in use. -/
def Use (s s' : VM) : Prop := ∀ i, (s'.io.table i).inUse = (s.io.table i).inUse

theorem Use.refl (s : VM) : Use s s := fun _ => rfl
theorem Use.trans {a b c : VM} (h : Use a b) (h' : Use b c) : Use a c := fun i => (h' i).trans (h i)
theorem Use.ofIo {s s' : VM} (h : s'.io = s.io) : Use s s' := fun i => by rw [h]

abbrev UW {α : Type} (s : VM) (r : Res (α × VM)) : Prop := Res.All (fun x => Use s x.2) r
abbrev UU (s : VM) (r : Res VM) : Prop := Res.All (fun x => Use s x) r

theorem all_bind {α β : Type} {P : α → Prop} {Q : β → Prop} {r : Res α} {f : α → Res β} (h : Res.All P r)
    (hf : ∀ a, P a → Res.All Q (f a)) : Res.All Q (r >>= f) := by
  cases r with
  | ok a => exact hf a h
  | ub => trivial
  | hang => trivial

theorem after {β : Type} {s s' : VM} {r : Res (β × VM)} (h : Use s s') (hr : UW s' r) : UW s r := by
  cases r with
  | ok a => exact h.trans hr
  | ub => trivial
  | hang => trivial

theorem bindW {α β : Type} {s : VM} {r : Res (α × VM)} {f : α × VM → Res (β × VM)} (h : UW s r)
    (hf : ∀ a s', UW s' (f (a, s'))) : UW s (r >>= f) :=
  all_bind h fun a u => after u (hf a.1 a.2)

theorem bindU {β : Type} {s : VM} {r : Res VM} {f : VM → Res (β × VM)} (h : UU s r)
    (hf : ∀ s', UW s' (f s')) : UW s (r >>= f) :=
  all_bind h fun a u => by
    have := hf a
    cases e : f a with
    | ok x => rw [e] at this; exact u.trans this
    | ub => trivial
    | hang => trivial

theorem bindR {α β : Type} {s : VM} {r : Res α} {f : α → Res (β × VM)} (hf : ∀ a, UW s (f a)) : UW s (r >>= f) := by
  cases r with
  | ok a => exact hf a
  | ub => trivial
  | hang => trivial

theorem ofU {h : VM → Res VM} (H : X (QU' false) h) (s : VM) : UU s (h s) :=
  All_of_rel (H 0#16 0#16 s) fun _ _ q => .ofIo (q.2.io rfl)
theorem ofW {α : Type} {h : VM → Res (α × VM)} (H : X (QW' false) h) (s : VM) : UW s (h s) :=
  All_of_rel (H 0#16 0#16 s) fun _ _ q => .ofIo (q.2.2.io rfl)

theorem pop (s : VM) : UW s s.pop := ofW Eff.pop s
theorem pop32 (s : VM) : UW s (LongOps.pop32 s) := ofW Eff.pop32 s
theorem push (s : VM) (w : Word) : UU s (s.push w) := ofU (Eff.push w) s
theorem push32 (s : VM) (w : BitVec 32) : UU s (LongOps.push32 s w) := ofU (Eff.push32 w) s
theorem wrF (s : VM) (p k v : Nat) : UU s (Heap.wrF s p k v) := ofU (Eff.wrF p k v) s
theorem wrB (s : VM) (p : Nat) (v : Byte) : UU s (s.wrB p v) := ofU (Eff.wrB p v) s
theorem copyIn (s : VM) (a : Nat) (l : List Byte) : UU s (Pas.copyIn s a l) := ofU (Eff.copyIn l a) s
theorem freeTmp (s : VM) (a b : Word) : UU s (Str.freeTmp s a b) := ofU (Eff.freeTmp a b) s

theorem setEntry (s : VM) (n : Nat) (e : FileEntry) (h : e.inUse = (s.io.table n).inUse) : Use s (SysIo.setEntry s n e) := by
  intro i
  show (if i = n then e else s.io.table i).inUse = _
  split
  · rename_i h'; rw [h, h']
  · rfl
theorem setFile (s : VM) (f : HostFile) (c : List Byte) : Use s (SysIo.setFile s f c) := fun _ => rfl
theorem setBuffer (s : VM) (l : List Byte) : Use s (SysIo.setBuffer s l) := fun _ => rfl
theorem advance (s : VM) (n : Nat) (t : Stream) (k : Nat) (e : Bool) : Use s (SysIo.advance s n t k e) := setEntry _ _ _ rfl
theorem setEoln (s : VM) (n : Nat) (e : Bool) : Use s (SysIo.setEoln s n e) := setEntry _ _ _ rfl
theorem put (s : VM) (n : Nat) (l : List Byte) : Use s (SysIo.put s n l) := by
  unfold SysIo.put
  split
  · exact .refl _
  · exact (setFile s _ _).trans (setEntry _ _ _ rfl)
theorem fgets (s : VM) (n : Nat) (t : Stream) (k : Nat) : Use s (SysIo.fgets s n t k).2 := by
  unfold SysIo.fgets
  split
  · exact .refl _
  · dsimp only
    split <;> exact advance _ _ _ _ _
theorem readBuffer (s : VM) (n : Nat) (t : Stream) : Use s (SysIo.readBuffer s n t) := by
  unfold SysIo.readBuffer
  have := fgets s n t lineSize
  generalize SysIo.fgets s n t lineSize = p at this ⊢
  obtain ⟨o, s1⟩ := p
  exact (this.trans (setBuffer _ _)).trans (setEoln _ _ _)
theorem withRead (s : VM) (n : Nat) (f : Stream → Res (Nat × VM)) (h : ∀ t, UW s (f t)) : UW s (SysIo.withRead s n f) := by
  unfold SysIo.withRead
  split
  · exact Use.refl _
  · split
    · exact Use.refl _
    · split
      · exact Use.refl _
      · exact h _
theorem fopen (h : Host) (s : VM) (l : List Byte) (m : OpenMode) : Use s (SysIo.fopen h s l m).2 := by
  unfold SysIo.fopen
  split
  · exact .refl _
  · split
    · split <;> exact .refl _
    · exact setFile _ _ _
    · exact setFile _ _ _
    · exact .refl _
theorem openFile (h : Host) (s : VM) (n : Nat) (m : OpenMode) : Use s (SysIo.openFile h s n m).2 := by
  unfold SysIo.openFile
  split
  · exact .refl _
  · split
    · exact .refl _
    · have := fopen h s (entry s n).fileName m
      split
      · rename_i e; rw [e] at this; exact this
      · rename_i e; rw [e] at this; exact this.trans (setEntry _ _ _ rfl)
theorem recordSize (s : VM) (n : Nat) (z : Word) : Use s (SysIo.recordSize s n z).2 := by
  unfold SysIo.recordSize
  split
  · exact .refl _
  · exact setEntry _ _ _ rfl
theorem closeFile (s : VM) (n : Nat) : Use s (SysIo.closeFile s n).2 := by
  unfold SysIo.closeFile
  split
  · exact .refl _
  · split
    · exact .refl _
    · exact setEntry _ _ _ rfl
theorem seek (s : VM) (n p : Nat) : Use s (SysIo.seek s n p).2 := by
  unfold SysIo.seek
  split
  · exact .refl _
  · split
    · exact .refl _
    · split
      · exact setEntry _ _ _ rfl
      · exact .refl _
theorem writeText (s : VM) (n : Nat) (l : List Byte) : Use s (SysIo.writeText s n l).2 := by
  unfold SysIo.writeText
  split
  · exact put _ _ _
  · exact .refl _
theorem pushed {a : Nat} (s : VM) (w : Word) : UW s (s.push w >>= fun s => .ok (a, s)) :=
  bindU (push s w) fun s => Use.refl s
theorem pushed32 {a : Nat} (s : VM) (w : BitVec 32) : UW s (LongOps.push32 s w >>= fun s => .ok (a, s)) :=
  bindU (push32 s w) fun s => Use.refl s

theorem sysIo (fpu : FloatOps.Fpu) (h : Host) (hd : ∀ s w, UW s (h.dir s w)) (s : VM) (w : Word)
    (h1 : w ≠ 1#16) (h2 : w ≠ 2#16) : UW s (SysIo.sysIo fpu h s w) := by
  have hw : ∀ {k : Nat}, k < 65536 → w.toNat = k → w = BitVec.ofNat 16 k := by
    intro k hk e
    apply BitVec.eq_of_toNat_eq
    rw [e, BitVec.toNat_ofNat, Nat.mod_eq_of_lt hk]
  unfold SysIo.sysIo
  split
  case h_1 e => exact absurd (hw (by decide) e) h1
  case h_2 e => exact absurd (hw (by decide) e) h2
  case h_3 =>
    refine bindW (pop s) fun n s => ?_
    dsimp only
    rw [eof_eq]
    refine after (s' := (eofOf n.toNat s).2) ?_ (pushed _ _)
    unfold eofOf
    split
    · exact .refl _
    · split
      · exact .refl _
      · split
        · exact .refl _
        · split
          · split
            · exact setEntry _ _ _ rfl
            · exact .refl _
          · exact .refl _
  case h_4 =>
    refine bindW (pop s) fun n s => ?_
    dsimp only
    unfold SysIo.eoln
    split
    · exact pushed _ _
    · exact pushed _ _
  case h_5 =>
    refine bindW (pop s) fun n s => ?_
    dsimp only
    unfold SysIo.filePos
    split
    · exact Use.refl _
    · split
      · exact Use.refl _
      · split
        · exact pushed32 _ _
        · exact pushed32 _ _
  case h_6 =>
    refine bindW (pop s) fun n s => ?_
    dsimp only
    unfold SysIo.fileSize
    split
    · exact Use.refl _
    · split
      · exact Use.refl _
      · rename_i t _
        refine after (s' := (getFileSize s n.toNat t).2.2) ?_ (pushed32 _ _)
        rw [getFileSize_eq]
        split
        · exact setEntry _ _ _ rfl
        · exact .refl _
  case h_7 => exact bindW (pop s) fun n s => bindW (pop32 s) fun p s => seek _ _ _
  case h_8 =>
    refine bindW (pop s) fun n s => ?_
    dsimp only
    unfold SysIo.seekEof
    rw [seekOver_eq]
    refine after (s' := (seekOf n.toNat _ _ s).2) ?_ (pushed _ _)
    unfold seekOf
    split
    · exact .refl _
    · split
      · exact .refl _
      · exact advance _ _ _ _ _
  case h_9 =>
    refine bindW (pop s) fun n s => ?_
    dsimp only
    unfold SysIo.seekEoln
    rw [seekOver_eq]
    refine after (s' := (seekOf n.toNat _ _ s).2) ?_ (pushed _ _)
    unfold seekOf
    split
    · exact .refl _
    · split
      · exact .refl _
      · exact advance _ _ _ _ _
  case h_10 =>
    refine after (s' := s.discard 1) (.refl _) (bindW (pop _) fun a s => bindW (pop _) fun a s => bindW (pop _) fun a s =>
      bindW (pop _) fun a s => ?_)
    dsimp only
    unfold SysIo.assignFile
    split
    · exact Use.refl _
    · split
      · exact Use.refl _
      · exact bindR fun l => setEntry _ _ _ rfl
  case h_11 => exact bindW (pop s) fun n s => openFile _ _ _ _
  case h_12 => exact bindW (pop s) fun n s => bindW (pop s) fun n s => (openFile _ _ _ _).trans (recordSize _ _ _)
  case h_13 => exact bindW (pop s) fun n s => openFile _ _ _ _
  case h_14 => exact bindW (pop s) fun n s => bindW (pop s) fun n s => (openFile _ _ _ _).trans (recordSize _ _ _)
  case h_15 => exact bindW (pop s) fun n s => openFile _ _ _ _
  case h_16 => exact bindW (pop s) fun n s => closeFile _ _
  case h_17 =>
    refine bindW (pop s) fun n s => withRead _ _ _ fun t => ?_
    split
    · exact setEoln _ _ _
    · exact advance _ _ _ _ _
  case h_18 =>
    exact bindW (pop s) fun n s => bindW (pop s) fun n s => bindW (pop s) fun n s => withRead _ _ _ fun t =>
      bindU (copyIn _ _ _) fun s => advance _ _ _ _ _
  case h_19 =>
    exact bindW (pop s) fun n s => bindW (pop s) fun n s => withRead _ _ _ fun t =>
      after (readBuffer s _ t) (bindU (wrF _ _ _ _) fun s => Use.refl s)
  case h_20 =>
    exact bindW (pop s) fun n s => bindW (pop s) fun n s => withRead _ _ _ fun t =>
      after (readBuffer s _ t) (bindU (wrB _ _ _) fun s => Use.refl s)
  case h_21 =>
    refine bindW (pop s) fun n s => bindW (pop s) fun n s => withRead _ _ _ fun t => bindR fun al => bindR fun d => ?_
    have := fgets s n.toNat t (Str.capacity (BitVec.ofNat 16 al))
    generalize SysIo.fgets s n.toNat t (Str.capacity (BitVec.ofNat 16 al)) = p at this ⊢
    obtain ⟨o, s1⟩ := p
    refine after this (bindU ?_ fun s => bindR fun l => bindU ?_ fun s =>
      after (setEoln s _ _) (bindU (wrF _ _ _ _) fun s => Use.refl s))
    · unfold storeLine
      split
      · exact copyIn _ _ _
      · exact Use.refl _
    · unfold dropNewline
      split
      · exact wrB _ _ _
      · exact Use.refl _
  case h_22 =>
    exact bindW (pop s) fun n s => bindW (pop s) fun n s => withRead _ _ _ fun t =>
      after (readBuffer s _ t) (bindR fun r => bindU (wrF _ _ _ _) fun s => bindU (wrF _ _ _ _) fun s =>
        bindU (wrF _ _ _ _) fun s => bindU (wrF _ _ _ _) fun s => Use.refl s)
  case h_23 => exact bindW (pop s) fun n s => writeText _ _ _
  case h_24 => exact bindW (pop s) fun n s => writeText _ _ _
  case h_25 =>
    refine bindW (pop s) fun n s => bindW (pop s) fun n s => bindW (pop s) fun n s => ?_
    dsimp only
    unfold SysIo.writeBinary
    split
    · exact bindR fun l => put _ _ _
    · exact Use.refl _
  case h_26 => exact bindW (pop s) fun n s => bindW (pop s) fun n s => bindW (pop s) fun n s => writeText _ _ _
  case h_27 => exact bindW (pop s) fun n s => bindW (pop s) fun n s => bindW (pop s) fun n s => writeText _ _ _
  case h_28 => exact bindW (pop s) fun n s => bindW (pop s) fun n s => bindW (pop s) fun n s => bindW (pop s) fun n s => writeText _ _ _
  case h_29 => exact bindW (pop s) fun n s => bindW (pop s) fun n s => bindW (pop s) fun n s => bindW (pop s) fun n s => writeText _ _ _
  case h_30 => exact bindW (pop s) fun n s => bindW (pop s) fun n s => bindW (pop s) fun n s => writeText _ _ _
  case h_31 =>
    refine bindW (pop s) fun n s => bindW (pop s) fun n s => bindW (pop s) fun n s => bindW (pop s) fun n s =>
      bindW (pop s) fun n s => ?_
    dsimp only
    unfold SysIo.writeString
    split
    · exact bindR fun l => after (put _ _ _) (bindU (freeTmp _ _ _) fun s => Use.refl s)
    · exact Use.refl _
  case h_32 =>
    exact bindW (pop s) fun n s => bindW (pop s) fun n s => bindW (pop s) fun n s => bindW (pop s) fun n s =>
      bindW (pop s) fun n s => bindW (pop s) fun n s => writeText _ _ _
  case h_33 => exact bindW (pop s) fun n s => Use.refl _
  case h_34 =>
    split
    · exact hd _ _
    · exact Use.refl _

end Pas.FileUse
