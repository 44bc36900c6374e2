import Verif.Lemmas.LibEffect
import Verif.Model.Convert

/-! The input/output routines and the conversions leave the program counter, the constant base and the
memory map alone. -/
namespace Pas.Eff
open Pas.SysIo

local notation "QR" => QR' true
local notation "QU" => QU' true
local notation "QW" => QW' true
local notation "QV" => QV' true
local notation "QT" => QT' true
local notation "QN" => QN' true
local notation "QP" => QP' true

/-- A state change that only concerns the moving parts. -/
def GU (u : VM → VM) : Prop := ∀ k ro s, u (shift k ro s) = shift k ro (u s) ∧ Same true s (u s)

/-- A state change with a result. -/
def GW {α : Type} (g : VM → α × VM) : Prop :=
  ∀ k ro s, g (shift k ro s) = ((g s).1, shift k ro (g s).2) ∧ Same true s (g s).2

/-- A state change with an error code. -/
def GN (g : VM → Nat × VM) : Prop :=
  ∀ k ro s, g (shift k ro s) = ((g s).1, shift k ro (g s).2) ∧ Same true s (g s).2 ∧ (g s).1 ≠ eILLEGALOPCODE

theorem GN.pure {g : VM → Nat × VM} (h : GN g) : X QN (fun s => .ok (g s)) := by
  intro k ro s
  obtain ⟨h1, h2, h3⟩ := h k ro s
  show Res.Rel _ (.ok (g s)) (.ok (g (shift k ro s)))
  rw [h1]
  exact ⟨rfl, rfl, h2, h3⟩

theorem GW.pure {α : Type} {g : VM → α × VM} (h : GW g) : X QW (fun s => .ok (g s)) := by
  intro k ro s
  obtain ⟨h1, h2⟩ := h k ro s
  show Res.Rel _ (.ok (g s)) (.ok (g (shift k ro s)))
  rw [h1]
  exact ⟨rfl, rfl, h2⟩

theorem GU.pure {u : VM → VM} (h : GU u) : X QU (fun s => .ok (u s)) := by
  intro k ro s
  obtain ⟨h1, h2⟩ := h k ro s
  show Res.Rel _ (.ok (u s)) (.ok (u (shift k ro s)))
  rw [h1]
  exact ⟨rfl, h2⟩

theorem GU.then {β : Type} {Q : Word → Word → VM → β → β → Prop} [Tr true Q] {u : VM → VM} {f : VM → Res β} (h : GU u)
    (hf : X Q f) : X Q (fun s => f (u s)) := bindU (h := fun s => .ok (u s)) h.pure hf

theorem GW.then {α β : Type} {Q : Word → Word → VM → β → β → Prop} [Tr true Q] {g : VM → α × VM} {f : α → VM → Res β}
    (h : GW g) (hf : ∀ a, X Q (f a)) : X Q (fun s => f (g s).1 (g s).2) :=
  bindW (h := fun s => .ok (g s)) (f := fun p => f p.1 p.2) h.pure hf

theorem gu_setEntry (n : Nat) {e : VM → FileEntry} (he : ∀ k ro s, e (shift k ro s) = e s) :
    GU (fun s => setEntry s n (e s)) := by
  intro k ro s
  refine ⟨?_, ⟨rfl, fun h => nomatch h⟩⟩
  show setEntry (shift k ro s) n (e (shift k ro s)) = _
  rw [he]
  rfl

theorem gu_setBuffer {e : VM → List Byte} (he : ∀ k ro s, e (shift k ro s) = e s) :
    GU (fun s => setBuffer s (e s)) := by
  intro k ro s
  refine ⟨?_, ⟨rfl, fun h => nomatch h⟩⟩
  show setBuffer (shift k ro s) (e (shift k ro s)) = _
  rw [he]
  rfl

theorem gu_setEoln (n : Nat) (b : Bool) : GU (fun s => setEoln s n b) := gu_setEntry n fun _ _ _ => rfl
theorem gu_advance (n : Nat) (t : Stream) (m : Nat) (b : Bool) : GU (fun s => advance s n t m b) :=
  gu_setEntry n fun _ _ _ => rfl

theorem gu_put (n : Nat) (l : List Byte) : GU (fun s => put s n l) := by
  intro k ro s
  unfold put
  show (match (entry s n).stream with | none => _ | some t => _) =
    shift k ro (match (entry s n).stream with | none => _ | some t => _) ∧ Same true s (match (entry s n).stream with | none => _ | some t => _)
  generalize hs : (entry s n).stream = o
  cases o with
  | none => exact ⟨rfl, .refl s⟩
  | some t => exact ⟨rfl, ⟨rfl, fun h => nomatch h⟩⟩

theorem entry_shift (k ro : Word) (s : VM) (n : Nat) : entry (shift k ro s) n = entry s n := rfl
theorem content_shift (k ro : Word) (s : VM) (f : HostFile) : content (shift k ro s) f = content s f := rfl
theorem rest_shift (k ro : Word) (s : VM) (t : Stream) : rest (shift k ro s) t = rest s t := rfl
theorem files_shift (k ro : Word) (s : VM) : (shift k ro s).io = s.io := rfl

theorem gnP {a : Nat} {u : VM → VM} (ha : a ≠ eILLEGALOPCODE) (hu : GU u) : GN (fun s => (a, u s)) :=
  fun k ro s => ⟨congrArg (Prod.mk a) (hu k ro s).1, (hu k ro s).2, ha⟩
theorem gu_id : GU (fun s => s) := fun _ _ s => ⟨rfl, .refl s⟩
theorem gnIte {c : VM → Prop} {inst : ∀ s, Decidable (c s)} {f g : VM → Nat × VM}
    (hc : ∀ k ro s, c (shift k ro s) ↔ c s) (hf : GN f) (hg : GN g) : GN (fun s => @ite _ (c s) (inst s) (f s) (g s)) := by
  intro k ro s
  by_cases h : c s
  · simp only [if_pos h, if_pos ((hc k ro s).mpr h)]
    exact hf k ro s
  · simp only [if_neg h, if_neg (fun x => h ((hc k ro s).mp x))]
    exact hg k ro s
theorem gnOpt {φ : VM → Option Stream} {f : VM → Nat × VM} {g : Stream → VM → Nat × VM}
    (hφ : ∀ k ro s, φ (shift k ro s) = φ s) (hf : GN f) (hg : ∀ t, GN (g t)) :
    GN (fun s => match φ s with | none => f s | some t => g t s) := by
  intro k ro s
  simp only [hφ]
  cases φ s with
  | none => exact hf k ro s
  | some t => exact hg t k ro s

theorem gwP {α : Type} {a : α} {u : VM → VM} (hu : GU u) : GW (fun s => (a, u s)) :=
  fun k ro s => ⟨congrArg (Prod.mk a) (hu k ro s).1, (hu k ro s).2⟩
theorem gwIte {α : Type} {c : VM → Prop} {inst : ∀ s, Decidable (c s)} {f g : VM → α × VM}
    (hc : ∀ k ro s, c (shift k ro s) ↔ c s) (hf : GW f) (hg : GW g) : GW (fun s => @ite _ (c s) (inst s) (f s) (g s)) := by
  intro k ro s
  by_cases h : c s
  · simp only [if_pos h, if_pos ((hc k ro s).mpr h)]
    exact hf k ro s
  · simp only [if_neg h, if_neg (fun x => h ((hc k ro s).mp x))]
    exact hg k ro s
theorem gwFix {α γ : Type} {φ : VM → γ} {F : γ → VM → α × VM} (hp : ∀ k ro s, φ (shift k ro s) = φ s)
    (hf : ∀ c, GW (F c)) : GW (fun s => F (φ s) s) := by
  intro k ro s
  show F (φ (shift k ro s)) (shift k ro s) = _ ∧ _
  rw [hp]
  exact hf _ k ro s
theorem gnBind {α : Type} {g : VM → α × VM} {f : α → VM → Nat × VM} (hg : GW g) (hf : ∀ a, GN (f a)) :
    GN (fun s => f (g s).1 (g s).2) := by
  intro k ro s
  obtain ⟨e1, e2⟩ := hg k ro s
  simp only [e1]
  obtain ⟨f1, f2, f3⟩ := hf (g s).1 k ro (g s).2
  exact ⟨f1, e2.trans f2, f3⟩
theorem guBind {α : Type} {g : VM → α × VM} {f : α → VM → VM} (hg : GW g) (hf : ∀ a, GU (f a)) :
    GU (fun s => f (g s).1 (g s).2) := by
  intro k ro s
  obtain ⟨e1, e2⟩ := hg k ro s
  simp only [e1]
  obtain ⟨f1, f2⟩ := hf (g s).1 k ro (g s).2
  exact ⟨f1, e2.trans f2⟩
theorem guComp {f g : VM → VM} (hf : GU f) (hg : GU g) : GU (fun s => g (f s)) := by
  intro k ro s
  obtain ⟨e1, e2⟩ := hf k ro s
  simp only [e1]
  obtain ⟨f1, f2⟩ := hg k ro (f s)
  exact ⟨f1, e2.trans f2⟩

/-- What `fgets` does when `l` is the line. -/
def fgetsOf (n : Nat) (t : Stream) (size : Nat) (l : List Byte) (s : VM) : Option (List Byte) × VM :=
  if size = 0 then (none, s)
  else
    if (decide (l.length < size - 1) && l.getLast? != some 10#8 && l.isEmpty) = true then
      (none, advance s n t l.length (decide (l.length < size - 1) && l.getLast? != some 10#8))
    else (some l, advance s n t l.length (decide (l.length < size - 1) && l.getLast? != some 10#8))

theorem gw_fgets (n : Nat) (t : Stream) (size : Nat) : GW (fun s => fgets s n t size) :=
  gwFix (φ := fun s => takeLine (size - 1) (rest s t)) (F := fgetsOf n t size) (fun _ _ _ => rfl) fun l =>
    gwIte (c := fun _ => size = 0) (fun _ _ _ => Iff.rfl) (gwP gu_id)
      (gwIte (c := fun _ => (decide (l.length < size - 1) && l.getLast? != some 10#8 && l.isEmpty) = true)
        (fun _ _ _ => Iff.rfl) (gwP (gu_advance _ _ _ _)) (gwP (gu_advance _ _ _ _)))

theorem gn_allocate : GW allocateFile := by
  intro k ro s
  have h : ∀ m n, findFree (shift k ro s) m n = findFree s m n := by
    intro m
    induction m with
    | zero => intro n; rfl
    | succ m ih =>
      intro n
      unfold findFree
      rw [ih]
      rfl
  unfold allocateFile
  simp only [h]
  split
  · exact ⟨rfl, ⟨rfl, fun h => nomatch h⟩⟩
  · exact ⟨rfl, .refl s⟩


theorem gn_close (n : Nat) : GN (fun s => closeFile s n) :=
  gnIte (fun _ _ _ => Iff.rfl) (gnP (by decide) gu_id) (gnIte (fun _ _ _ => Iff.rfl) (gnP (by decide) gu_id)
    (gnP (by decide) (gu_setEntry n fun _ _ _ => rfl)))

theorem gn_free (n : Nat) : GN (fun s => freeFile s n) :=
  gnIte (fun _ _ _ => Iff.rfl) (gnP (by decide) gu_id) (gnIte (fun _ _ _ => Iff.rfl) (gnP (by decide) gu_id)
    (gnP (by decide) (gu_setEntry n fun _ _ _ => rfl)))

theorem gn_record (n : Nat) (w : Word) : GN (fun s => recordSize s n w) :=
  gnIte (fun _ _ _ => Iff.rfl) (gnP (by decide) gu_id) (gnP (by decide) (gu_setEntry n fun _ _ _ => rfl))

theorem gn_seek (n p : Nat) : GN (fun s => seek s n p) :=
  gnIte (fun _ _ _ => Iff.rfl) (gnP (by decide) gu_id) (gnOpt (φ := fun s => (entry s n).stream) (fun _ _ _ => rfl)
    (gnP (by decide) gu_id) fun t => gnIte (c := fun _ => seekable t = true) (fun _ _ _ => Iff.rfl)
      (gnP (by decide) (gu_setEntry n fun _ _ _ => rfl)) (gnP (by decide) gu_id))

theorem writeError_shift (k ro : Word) (s : VM) (n : Nat) : writeError (shift k ro s) n = writeError s n := rfl
theorem writeError_legal (s : VM) (n : Nat) : writeError s n ≠ eILLEGALOPCODE := by
  unfold writeError
  repeat' split
  all_goals decide

theorem gn_errOnly {f : VM → Nat} (hf : ∀ k ro s, f (shift k ro s) = f s) (h : ∀ s, f s ≠ eILLEGALOPCODE) :
    GN (fun s => (f s, s)) := by
  intro k ro s
  exact ⟨by simp only [hf], .refl s, h s⟩

theorem gn_writeText (n : Nat) (l : List Byte) : GN (fun s => writeText s n l) :=
  gnIte (c := fun s => writeError s n = eNOERROR) (fun _ _ _ => Iff.rfl) (gnP (by decide) (gu_put n l))
    (gn_errOnly (f := fun s => writeError s n) (fun _ _ _ => rfl) (fun s => writeError_legal s n))

theorem gn_flush (n : Nat) : GN (fun s => (writeError s n, s)) :=
  fun _ _ s => ⟨rfl, .refl s, writeError_legal s n⟩

theorem gu_setFile (f : HostFile) {e : VM → List Byte} (he : ∀ k ro s, e (shift k ro s) = e s) :
    GU (fun s => setFile s f (e s)) := by
  intro k ro s
  refine ⟨?_, ⟨rfl, fun h => nomatch h⟩⟩
  show setFile (shift k ro s) f (e (shift k ro s)) = _
  rw [he]
  rfl

theorem gw_fopen (h : Host) (name : List Byte) (m : OpenMode) : GW (fun s => fopen h s name m) := by
  refine gwIte (c := fun _ => name = [] ∨ h.mayOpen name m = false) (fun _ _ _ => Iff.rfl) (gwP gu_id) ?_
  cases m with
  | read =>
    exact gwIte (c := fun s => (s.io.files (.named name)).isSome = true) (fun _ _ _ => Iff.rfl) (gwP gu_id) (gwP gu_id)
  | write => exact gwP (gu_setFile _ fun _ _ _ => rfl)
  | append =>
    exact gwFix (φ := fun s => content s (.named name)) (F := fun c s => (some (Stream.mk (.named name) c.length false), setFile s (.named name) c))
      (fun _ _ _ => rfl) fun c => gwP (gu_setFile _ fun _ _ _ => rfl)
  | none => exact gwP gu_id

theorem gnFix {γ : Type} {φ : VM → γ} {F : γ → VM → Nat × VM} (hp : ∀ k ro s, φ (shift k ro s) = φ s)
    (hf : ∀ c, GN (F c)) : GN (fun s => F (φ s) s) := by
  intro k ro s
  show F (φ (shift k ro s)) (shift k ro s) = _ ∧ _
  rw [hp]
  exact hf _ k ro s

/-- What `openFile` does with the result of `fopen`. -/
def opened (n : Nat) (m : OpenMode) : Option Stream → VM → Nat × VM
  | none, s => (eOPENFAILED, s)
  | some t, s => (eNOERROR, setEntry s n { entry s n with stream := some t, openMode := m })

theorem gn_open (h : Host) (n : Nat) (m : OpenMode) : GN (fun s => openFile h s n m) := by
  have e : (fun s => openFile h s n m) = fun s =>
      if n ≥ maxFiles then (eBADFILE, s)
      else if (entry s n).stream ≠ none then (eFILEALREADYOPEN, s)
      else opened n m (fopen h s (entry s n).fileName m).1 (fopen h s (entry s n).fileName m).2 := by
    funext s
    unfold openFile
    rcases fopen h s (entry s n).fileName m with ⟨_ | t, q⟩ <;> rfl
  rw [e]
  refine gnIte (c := fun _ => n ≥ maxFiles) (fun _ _ _ => Iff.rfl) (gnP (by decide) gu_id)
    (gnIte (c := fun s => (entry s n).stream ≠ none) (fun _ _ _ => Iff.rfl) (gnP (by decide) gu_id) ?_)
  refine gnFix (φ := fun s => (entry s n).fileName) (F := fun f s => opened n m (fopen h s f m).1 (fopen h s f m).2)
    (fun _ _ _ => rfl) fun f => gnBind (gw_fopen h f m) fun o => ?_
  cases o with
  | none => exact gnP (by decide) gu_id
  | some t => exact gnP (by decide) (gu_setEntry n fun _ _ _ => rfl)

/-- What `readBuffer` does with the result of `fgets`. -/
def buffered (n : Nat) (o : Option (List Byte)) (s : VM) : VM :=
  match o with
  | some l => setEoln (setBuffer s (checkEoln (cstr l)).1) n (checkEoln (cstr l)).2
  | none => setEoln (setBuffer s (checkEoln s.io.buffer).1) n (checkEoln s.io.buffer).2

theorem readBuffer_eq (s : VM) (n : Nat) (t : Stream) :
    readBuffer s n t = buffered n (fgets s n t lineSize).1 (fgets s n t lineSize).2 := by
  unfold readBuffer
  rcases fgets s n t lineSize with ⟨_ | l, q⟩ <;> rfl

theorem gu_readBuffer (n : Nat) (t : Stream) : GU (fun s => readBuffer s n t) := by
  have e : (fun s => readBuffer s n t) = fun s => buffered n (fgets s n t lineSize).1 (fgets s n t lineSize).2 :=
    funext fun s => readBuffer_eq s n t
  rw [e]
  refine guBind (gw_fgets n t lineSize) fun o => ?_
  cases o with
  | none =>
    intro k ro s
    exact ⟨rfl, ⟨rfl, fun h => nomatch h⟩⟩
  | some l =>
    intro k ro s
    exact ⟨rfl, ⟨rfl, fun h => nomatch h⟩⟩

theorem xOpt {φ : VM → Option Stream} {f : VM → Res (Nat × VM)} {g : Stream → VM → Res (Nat × VM)}
    (hφ : ∀ k ro s, φ (shift k ro s) = φ s) (hf : X QN f) (hg : ∀ t, X QN (g t)) :
    X QN (fun s => match φ s with | none => f s | some t => g t s) := by
  intro k ro s
  simp only [hφ]
  cases φ s with
  | none => exact hf k ro s
  | some t => exact hg t k ro s

theorem withRead_QN (n : Nat) {f : VM → Stream → Res (Nat × VM)} (hf : ∀ t, X QN (fun s => f s t)) :
    X QN (fun s => withRead s n (f s)) :=
  itec (c := n ≥ maxFiles) (pureN (a := eBADFILE) (by decide)) (xOpt (φ := fun s => (entry s n).stream) (fun _ _ _ => rfl)
    (pureN (a := eNOTOPENFORREAD) (by decide)) fun t => itep (c := fun s => (entry s n).openMode ≠ .read) (fun _ _ _ => Iff.rfl)
      (pureN (a := eNOTOPENFORREAD) (by decide)) (hf t))

theorem io_fixed {β γ : Type} {Q : Word → Word → VM → β → β → Prop} {φ : Io → γ} {F : γ → VM → Res β}
    (hf : ∀ c, X Q (F c)) : X Q (fun s => F (φ s.io) s) :=
  fixed (φ := fun s => φ s.io) (fun _ _ _ => rfl) hf

theorem wrF_U (p k v : Nat) : X QU (fun s => Heap.wrF s p k v) := by
  eff
theorem copyIn_U (l : List Byte) : ∀ a, X QU (fun s => Pas.copyIn s a l) := by
  induction l with
  | nil => intro a; exact pureU
  | cons b l ih => intro a; exact bindU (wrB _ _) (ih _)

theorem readLn (n : Nat) : X QN (fun s => SysIo.readLn s n) := by
  refine withRead_QN n fun t => ?_
  refine itep (fun _ _ _ => Iff.rfl) (gu_setEoln n false |>.then (pureN (by decide))) ?_
  exact io_fixed (φ := fun i => (Option.getD (i.files t.file) []).drop t.pos)
    (F := fun r s => .ok (eNOERROR, advance s n t (takeLine r.length r).length ((takeLine r.length r).getLast? != some 10#8)))
    fun r => (gu_advance n t _ _).then (pureN (by decide))

theorem readBinary (n d z : Nat) : X QN (fun s => SysIo.readBinary s n d z) := by
  refine withRead_QN n fun t => ?_
  exact io_fixed (φ := fun i => ((Option.getD (i.files t.file) []).drop t.pos).take z)
    (F := fun l s => Pas.copyIn s d l >>= fun s => .ok (eNOERROR, advance s n t l.length (decide (l.length < z))))
    fun l => bindU (copyIn_U _ _) ((gu_advance n t _ _).then (pureN (by decide)))

theorem readInteger (n : Nat) (d : Word) : X QN (fun s => SysIo.readInteger s n d) := by
  refine withRead_QN n fun t => ?_
  refine (gu_readBuffer n t).then (f := fun s => Heap.wrF s d.toNat 0 (convertInteger s.io.buffer).toNat >>= fun s => .ok (eNOERROR, s)) ?_
  exact io_fixed (φ := fun i => i.buffer) (F := fun l s => Heap.wrF s d.toNat 0 (convertInteger l).toNat >>= fun s => .ok (eNOERROR, s))
    fun l => bindU (wrF_U _ _ _) (pureN (by decide))

theorem readChar (n : Nat) (d : Word) : X QN (fun s => SysIo.readChar s n d) := by
  refine withRead_QN n fun t => ?_
  refine (gu_readBuffer n t).then (f := fun s => s.wrB d.toNat (s.io.buffer.headD 0#8) >>= fun s => .ok (eNOERROR, s)) ?_
  exact io_fixed (φ := fun i => i.buffer) (F := fun l s => s.wrB d.toNat (l.headD 0#8) >>= fun s => .ok (eNOERROR, s))
    fun l => bindU (wrB _ _) (pureN (by decide))

theorem readReal (fpu : FloatOps.Fpu) (n : Nat) (d : Word) : X QN (fun s => SysIo.readReal fpu s n d) := by
  refine withRead_QN n fun t => ?_
  refine (gu_readBuffer n t).then (f := fun s => convertReal fpu s.io.buffer >>= fun r => Heap.wrF s d.toNat 0 (r.extractLsb' 0 16).toNat >>= fun s =>
    Heap.wrF s d.toNat 1 (r.extractLsb' 16 16).toNat >>= fun s => Heap.wrF s d.toNat 2 (r.extractLsb' 32 16).toNat >>= fun s =>
    Heap.wrF s d.toNat 3 (r.extractLsb' 48 16).toNat >>= fun s => .ok (eNOERROR, s)) ?_
  refine io_fixed (φ := fun i => i.buffer) (F := fun l s => convertReal fpu l >>= fun r => Heap.wrF s d.toNat 0 (r.extractLsb' 0 16).toNat >>= fun s =>
    Heap.wrF s d.toNat 1 (r.extractLsb' 16 16).toNat >>= fun s => Heap.wrF s d.toNat 2 (r.extractLsb' 32 16).toNat >>= fun s =>
    Heap.wrF s d.toNat 3 (r.extractLsb' 48 16).toNat >>= fun s => .ok (eNOERROR, s)) fun l => ?_
  exact bindR res fun r => bindU (wrF_U _ _ _) (bindU (wrF_U _ _ _) (bindU (wrF_U _ _ _) (bindU (wrF_U _ _ _) (pureN (by decide)))))

theorem gwBind {α β : Type} {Q : Word → Word → VM → β → β → Prop} [Tr true Q] {g : VM → α × VM} {f : α × VM → Res β}
    (h : GW g) (hf : ∀ a, X Q (fun s => f (a, s))) : X Q (fun s => f (g s)) :=
  bindW (h := fun s => .ok (g s)) (f := f) h.pure hf

/-- The end of `readString`. -/
def stored (n : Nat) (v : Word) (data : Nat) (s : VM) : Res (Nat × VM) := do
  let l ← Str.cString s (2 * s.words + 1) data
  let s ← dropNewline s data l
  let s := setEoln s n (checkEoln l).2
  let s ← Heap.wrF s v.toNat 0 (checkEoln l).1.length
  .ok (eNOERROR, s)

theorem stored_QN (n : Nat) (v : Word) (data : Nat) : X QN (stored n v data) := by
  refine fixed (φ := fun s => s.words) (F := fun c s => Str.cString s (2 * c + 1) data >>= fun l =>
    dropNewline s data l >>= fun s =>
    Heap.wrF (setEoln s n (checkEoln l).2) v.toNat 0 (checkEoln l).1.length >>= fun s => .ok (eNOERROR, s))
    (fun _ _ _ => rfl) fun c => bindR (cString _ _) fun l => bindU (Q := QN) (itec (wrB _ _) pureU) ?_
  exact (gu_setEoln n _).then (bindU (wrF _ _ _) (pureN (by decide)))

theorem readString (n : Nat) (v : Word) : X QN (fun s => SysIo.readString s n v) := by
  refine withRead_QN n fun t => bindR (rdF _ _) fun alloc => bindR (rdF _ _) fun data => ?_
  refine gwBind (Q := QN) (g := fun s => fgets s n t (Str.capacity (BitVec.ofNat 16 alloc)))
    (f := fun p => match p with
      | (o, s) => storeLine s data o >>= stored n v data) (gw_fgets _ _ _) fun o => ?_
  cases o with
  | none => exact bindU (h := fun s => .ok s) pureU (stored_QN _ _ _)
  | some l => exact bindU (copyIn _ _) (stored_QN _ _ _)

theorem writeBinary (n a z : Nat) : X QN (fun s => SysIo.writeBinary s n a z) :=
  itep (c := fun s => writeError s n = eNOERROR) (fun _ _ _ => Iff.rfl)
    (bindR (readBytes _ _) fun l => (gu_put n l).then (pureN (by decide)))
    (gn_errOnly (f := fun s => writeError s n) (fun _ _ _ => rfl) (fun s => writeError_legal s n)).pure

theorem writeString (n : Nat) (a z al w : Word) : X QN (fun s => SysIo.writeString s n a z al w) :=
  itep (c := fun s => writeError s n = eNOERROR) (fun _ _ _ => Iff.rfl)
    (bindR (readBytes _ _) fun _ => (gu_put n _).then (bindU (freeTmp _ _) (pureN (by decide))))
    (gn_errOnly (f := fun s => writeError s n) (fun _ _ _ => rfl) (fun s => writeError_legal s n)).pure

theorem assignFile (n : Nat) (b : Bool) (a z : Nat) : X QN (fun s => SysIo.assignFile s n b a z) :=
  itec (c := n ≥ maxFiles) (pureN (by decide)) (itec (c := z > fnameSize) (pureN (by decide))
    (bindR (readBytes _ _) fun _ => (gnP (by decide) (gu_setEntry n fun _ _ _ => rfl)).pure))

theorem pushN {a : Nat} (w : Word) (h : a ≠ eILLEGALOPCODE) : X QN (fun s => s.push w >>= fun s => .ok (a, s)) :=
  bindU (push w) (pureN h)
theorem push32N {a : Nat} (w : BitVec 32) (h : a ≠ eILLEGALOPCODE) :
    X QN (fun s => LongOps.push32 s w >>= fun s => .ok (a, s)) := bindU (push32 w) (pureN h)

theorem eoln (n : Nat) : X QN (fun s => SysIo.eoln s n) :=
  itec (c := n ≥ maxFiles) (pushN _ (by decide))
    (fixed (φ := fun s => SysIo.bool (entry s n).eoln) (F := fun w s => s.push w >>= fun s => .ok (eNOERROR, s)) (fun _ _ _ => rfl)
      fun w => pushN w (by decide))

theorem filePos (n : Nat) : X QN (fun s => SysIo.filePos s n) :=
  itec (c := n ≥ maxFiles) (pureN (a := eBADFILE) (by decide)) (xOpt (φ := fun s => (entry s n).stream) (fun _ _ _ => rfl)
    (pureN (a := eFILENOTOPEN) (by decide)) fun t => itec (c := seekable t = true)
      (push32N (a := eNOERROR) (BitVec.ofNat 32 t.pos) (by decide)) (push32N (a := eFTELLFAILED) 0xffffffff#32 (by decide)))

theorem getFileSize_eq (s : VM) (n : Nat) (t : Stream) : getFileSize s n t =
    if seekable t then (eNOERROR, (content s t.file).length, setEntry s n { entry s n with stream := some { t with eof := false } })
    else (eFTELLFAILED, 0, s) := rfl

theorem fileSize (n : Nat) : X QN (fun s => SysIo.fileSize s n) := by
  refine itec (c := n ≥ maxFiles) (pureN (a := eBADFILE) (by decide)) (xOpt (φ := fun s => (entry s n).stream) (fun _ _ _ => rfl)
    (pureN (a := eFILENOTOPEN) (by decide)) fun t => ?_)
  simp only [getFileSize_eq]
  by_cases h : seekable t = true
  · simp only [if_pos h]
    exact fixed (φ := fun s => (content s t.file).length)
      (F := fun c s => LongOps.push32 (setEntry s n { entry s n with stream := some { t with eof := false } }) (BitVec.ofNat 32 c) >>=
        fun s => .ok (eNOERROR, s)) (fun _ _ _ => rfl) fun c =>
      (gu_setEntry n fun _ _ _ => rfl).then (push32N (BitVec.ofNat 32 c) (by decide))
  · simp only [if_neg h]
    exact push32N _ (by decide)

/-- An error code and an answer on the stack. -/
def answer (p : (Nat × Bool) × VM) : Res (Nat × VM) := p.2.push (SysIo.bool p.1.2) >>= fun s => .ok (p.1.1, s)

/-- A state change with a legal error code and an answer. -/
def GB (g : VM → (Nat × Bool) × VM) : Prop := GW g ∧ ∀ s, (g s).1.1 ≠ eILLEGALOPCODE

theorem answer_QN {g : VM → (Nat × Bool) × VM} (h : GB g) : X QN (fun s => answer (g s)) := by
  intro k ro s
  obtain ⟨e1, e2⟩ := h.1 k ro s
  have h3 := h.2 s
  show Res.Rel _ (answer (g s)) (answer (g (shift k ro s)))
  rw [e1]
  generalize g s = p at e2 h3 ⊢
  obtain ⟨⟨a, b⟩, q⟩ := p
  exact rel_mono (pushN (SysIo.bool b) h3 k ro q) fun x y r => Tr.tr _ _ _ _ _ _ e2 r

theorem gbP {a : Nat} {b : Bool} {u : VM → VM} (ha : a ≠ eILLEGALOPCODE) (hu : GU u) : GB (fun s => ((a, b), u s)) :=
  ⟨gwP hu, fun _ => ha⟩
theorem gbIte {c : VM → Prop} {inst : ∀ s, Decidable (c s)} {f g : VM → (Nat × Bool) × VM}
    (hc : ∀ k ro s, c (shift k ro s) ↔ c s) (hf : GB f) (hg : GB g) : GB (fun s => @ite _ (c s) (inst s) (f s) (g s)) := by
  refine ⟨gwIte hc hf.1 hg.1, fun s => ?_⟩
  by_cases h : c s
  · simp only [if_pos h]; exact hf.2 s
  · simp only [if_neg h]; exact hg.2 s
theorem gbOpt {φ : VM → Option Stream} {f : VM → (Nat × Bool) × VM} {g : Stream → VM → (Nat × Bool) × VM}
    (hφ : ∀ k ro s, φ (shift k ro s) = φ s) (hf : GB f) (hg : ∀ t, GB (g t)) :
    GB (fun s => match φ s with | none => f s | some t => g t s) := by
  constructor
  · intro k ro s
    simp only [hφ]
    cases φ s with
    | none => exact hf.1 k ro s
    | some t => exact (hg t).1 k ro s
  · intro s
    dsimp only
    cases φ s with
    | none => exact hf.2 s
    | some t => exact (hg t).2 s
theorem gbFix {γ : Type} {φ : VM → γ} {F : γ → VM → (Nat × Bool) × VM} (hp : ∀ k ro s, φ (shift k ro s) = φ s)
    (hf : ∀ c, GB (F c)) : GB (fun s => F (φ s) s) :=
  ⟨gwFix hp fun c => (hf c).1, fun s => (hf _).2 s⟩

/-- `eof` before the answer. -/
def eofOf (n : Nat) (s : VM) : (Nat × Bool) × VM :=
  if n ≥ maxFiles then ((eBADFILE, true), s)
  else
    match (entry s n).stream with
    | none => ((eFILENOTOPEN, true), s)
    | some t =>
        if t.eof then ((eNOERROR, true), s)
        else if n ≠ 0 then
          if seekable t then ((eNOERROR, decide (t.pos ≥ (content s t.file).length)),
            setEntry s n { entry s n with stream := some { t with eof := false } })
          else ((eFTELLFAILED, true), s)
        else ((eNOERROR, false), s)

theorem eof_eq (n : Nat) (s : VM) : SysIo.eof s n = answer (eofOf n s) := by
  unfold SysIo.eof eofOf
  by_cases h : n ≥ maxFiles
  · simp only [if_pos h]; rfl
  · simp only [if_neg h]
    cases (entry s n).stream with
    | none => rfl
    | some t =>
      dsimp only
      by_cases h1 : t.eof = true
      · simp only [if_pos h1]; rfl
      · simp only [if_neg h1]
        by_cases h2 : n ≠ 0
        · simp only [if_pos h2, getFileSize_eq]
          by_cases h3 : seekable t = true
          · simp only [if_pos h3, ne_eq, not_true_eq_false, false_or]; rfl
          · simp only [if_neg h3]
            have : decide (eFTELLFAILED ≠ eNOERROR ∨ t.pos ≥ 0) = true := by simp
            rw [this]
            rfl
        · simp only [if_neg h2]; rfl

theorem eof (n : Nat) : X QN (fun s => SysIo.eof s n) := by
  simp only [eof_eq]
  refine answer_QN (gbIte (c := fun _ => n ≥ maxFiles) (fun _ _ _ => Iff.rfl) (gbP (by decide) gu_id)
    (gbOpt (φ := fun s => (entry s n).stream) (fun _ _ _ => rfl) (gbP (a := eFILENOTOPEN) (b := true) (by decide) gu_id) fun t =>
      gbIte (c := fun _ => t.eof = true) (fun _ _ _ => Iff.rfl) (gbP (a := eNOERROR) (b := true) (by decide) gu_id)
        (gbIte (c := fun _ => n ≠ 0) (fun _ _ _ => Iff.rfl)
          (gbIte (c := fun _ => seekable t = true) (fun _ _ _ => Iff.rfl) ?_ (gbP (a := eFTELLFAILED) (b := true) (by decide) gu_id))
          (gbP (a := eNOERROR) (b := false) (by decide) gu_id))))
  exact gbFix (φ := fun s => content s t.file)
    (F := fun c s => ((eNOERROR, decide (t.pos ≥ c.length)), setEntry s n { entry s n with stream := some { t with eof := false } }))
    (fun _ _ _ => rfl) fun c => gbP (by decide) (gu_setEntry n fun _ _ _ => rfl)

/-- `seekOver` before the answer. -/
def seekOf (n : Nat) (stop : Byte → Bool) (found : Option Byte → Bool) (s : VM) : (Nat × Bool) × VM :=
  if n ≥ maxFiles then ((eBADFILE, false), s)
  else
    match (entry s n).stream with
    | none => ((eFILENOTOPEN, false), s)
    | some t => ((eNOERROR, found (skipSpace stop (rest s t)).2),
        advance s n t (skipSpace stop (rest s t)).1 (skipSpace stop (rest s t)).2.isNone)

theorem seekOver_eq (n : Nat) (stop : Byte → Bool) (found : Option Byte → Bool) (s : VM) :
    SysIo.seekOver s n stop found = answer (seekOf n stop found s) := by
  unfold SysIo.seekOver seekOf
  by_cases h : n ≥ maxFiles
  · simp only [if_pos h]; rfl
  · simp only [if_neg h]
    cases (entry s n).stream <;> rfl

theorem seekOver (n : Nat) (stop : Byte → Bool) (found : Option Byte → Bool) :
    X QN (fun s => SysIo.seekOver s n stop found) := by
  simp only [seekOver_eq]
  refine answer_QN (gbIte (c := fun _ => n ≥ maxFiles) (fun _ _ _ => Iff.rfl) (gbP (by decide) gu_id)
    (gbOpt (φ := fun s => (entry s n).stream) (fun _ _ _ => rfl) (gbP (a := eFILENOTOPEN) (b := false) (by decide) gu_id) fun t => ?_))
  exact gbFix (φ := fun s => skipSpace stop (rest s t)) (F := fun p s => ((eNOERROR, found p.2), advance s n t p.1 p.2.isNone))
    (fun _ _ _ => rfl) fun p => gbP (by decide) (gu_advance _ _ _ _)

theorem allocPush : X QN (fun s => (allocateFile s).2.push (BitVec.ofNat 16 (allocateFile s).1) >>= fun s' =>
    .ok (if (allocateFile s).1 ≥ maxFiles then eTOOMANYFILES else eNOERROR, s')) := by
  refine GW.then (f := fun n s => s.push (BitVec.ofNat 16 n) >>= fun s => .ok (if n ≥ maxFiles then eTOOMANYFILES else eNOERROR, s))
    gn_allocate fun n => pushN _ ?_
  split <;> decide

theorem gn_resize (h : Host) (n : Nat) (m : OpenMode) (w : Word) : GN (fun s => recordSize (openFile h s n m).2 n w) :=
  gnBind (g := fun s => openFile h s n m) (f := fun _ s => recordSize s n w)
    (fun k ro s => ⟨(gn_open h n m k ro s).1, (gn_open h n m k ro s).2.1⟩) fun _ => gn_record n w

theorem sysIo (fpu : FloatOps.Fpu) (h : Host) (hd : ∀ w, X QN (fun s => h.dir s w)) (w : Word) :
    X QN (fun s => SysIo.sysIo fpu h s w) := by
  unfold SysIo.sysIo
  split
  case h_1 => exact allocPush
  case h_2 => exact bindW pop fun _ => (gn_free _).pure
  case h_3 => exact bindW pop fun _ => eof _
  case h_4 => exact bindW pop fun _ => eoln _
  case h_5 => exact bindW pop fun _ => filePos _
  case h_6 => exact bindW pop fun _ => fileSize _
  case h_7 => exact bindW pop fun _ => bindW pop32 fun _ => (gn_seek _ _).pure
  case h_8 => exact bindW pop fun _ => seekOver _ _ _
  case h_9 => exact bindW pop fun _ => seekOver _ _ _
  case h_10 =>
    exact chg (u := fun s => s.discard 1) (fun _ _ _ => rfl) (fun _ => ⟨rfl, fun _ => rfl⟩)
      (bindW pop fun _ => bindW pop fun _ => bindW pop fun _ => bindW pop fun _ => assignFile _ _ _ _)
  case h_11 => exact bindW pop fun _ => (gn_open _ _ _).pure
  case h_12 => exact bindW pop fun _ => bindW pop fun _ => (gn_resize _ _ _ _).pure
  case h_13 => exact bindW pop fun _ => (gn_open _ _ _).pure
  case h_14 => exact bindW pop fun _ => bindW pop fun _ => (gn_resize _ _ _ _).pure
  case h_15 => exact bindW pop fun _ => (gn_open _ _ _).pure
  case h_16 => exact bindW pop fun _ => (gn_close _).pure
  case h_17 => exact bindW pop fun _ => readLn _
  case h_18 => exact bindW pop fun _ => bindW pop fun _ => bindW pop fun _ => readBinary _ _ _
  case h_19 => exact bindW pop fun _ => bindW pop fun _ => readInteger _ _
  case h_20 => exact bindW pop fun _ => bindW pop fun _ => readChar _ _
  case h_21 => exact bindW pop fun _ => bindW pop fun _ => readString _ _
  case h_22 => exact bindW pop fun _ => bindW pop fun _ => readReal _ _ _
  case h_23 => exact bindW pop fun _ => (gn_writeText _ _).pure
  case h_24 => exact bindW pop fun _ => (gn_writeText _ _).pure
  case h_25 => exact bindW pop fun _ => bindW pop fun _ => bindW pop fun _ => writeBinary _ _ _
  case h_26 => exact bindW pop fun _ => bindW pop fun _ => bindW pop fun _ => (gn_writeText _ _).pure
  case h_27 => exact bindW pop fun _ => bindW pop fun _ => bindW pop fun _ => (gn_writeText _ _).pure
  case h_28 => exact bindW pop fun _ => bindW pop fun _ => bindW pop fun _ => bindW pop fun _ => (gn_writeText _ _).pure
  case h_29 => exact bindW pop fun _ => bindW pop fun _ => bindW pop fun _ => bindW pop fun _ => (gn_writeText _ _).pure
  case h_30 => exact bindW pop fun _ => bindW pop fun _ => bindW pop fun _ => (gn_writeText _ _).pure
  case h_31 =>
    exact bindW pop fun _ => bindW pop fun _ => bindW pop fun _ => bindW pop fun _ => bindW pop fun _ => writeString _ _ _ _ _
  case h_32 =>
    exact bindW pop fun _ => bindW pop fun _ => bindW pop fun _ => bindW pop fun _ => bindW pop fun _ => bindW pop fun _ =>
      (gn_writeText _ _).pure
  case h_33 => exact bindW pop fun _ => (gn_flush _).pure
  case h_34 => exact itec (hd w) (pureN (by decide))

theorem appendText {fl : Bool} (v : Word) (b : Bool) (l : List Byte) : X (QN' fl) (fun s => Convert.appendText s v b l) := by
  unfold Convert.appendText
  refine bindR (rdF _ _) fun a => bindR (rdF _ _) fun addr => bindR (rdF _ _) fun size => itec ?_ (pureN (by decide))
  refine bindU ?_ (bindU (wrF _ _ _) (pureN (by decide)))
  exact itec pureU (copyIn _ _)

theorem val {fl : Bool} : X (QN' fl) Convert.val := by
  refine bindW pop fun codeAddr => bindW pop fun valueAddr => bindW pop fun strAlloc => bindW pop fun strAddr =>
    bindW pop fun strSize => bindW (mkCString _ _ _) fun o => ?_
  cases o with
  | none => exact bindU (freeTmp _ _) (pureN (by decide))
  | some p =>
    refine fixed (φ := fun s => s.words) (F := fun c s => Str.cString s (2 * c + 1) p >>= fun l =>
      if (Convert.strtol l).1 < -32768 ∨ (Convert.strtol l).1 > 32767 then
        Str.freeTmp s strAddr strAlloc >>= fun s => .ok (Convert.eINTEGEROVERFLOW, s)
      else s.putStack (signExtend8 ((Convert.strtol l).2.headD 0#8)) codeAddr >>= fun s =>
        s.putStack (BitVec.ofInt 16 (Convert.strtol l).1) valueAddr >>= fun s =>
        Str.freeTmp s strAddr strAlloc >>= fun s => .ok (eNOERROR, s)) (fun _ _ _ => rfl) fun c => ?_
    exact bindR (cString _ _) fun l => itec (bindU (freeTmp _ _) (pureN (by decide)))
      (bindU (wr _ _) (bindU (wr _ _) (bindU (freeTmp _ _) (pureN (by decide)))))

theorem conversions {fl : Bool} (h : Host) (w : Word) : X (QN' fl) (fun s => Convert.conversions h s w) := by
  unfold Convert.conversions
  split
  case h_1 => exact bindW pop fun _ => bindW pop fun _ => bindW pop fun _ => appendText _ _ _
  case h_2 => exact bindW pop fun _ => bindW pop fun _ => bindW pop fun _ => appendText _ _ _
  case h_3 => exact bindW pop fun _ => bindW pop fun _ => bindW pop32 fun _ => appendText _ _ _
  case h_4 => exact bindW pop fun _ => bindW pop fun _ => bindW pop32 fun _ => appendText _ _ _
  case h_5 =>
    exact bindW pop fun _ => bindW pop fun _ => bindW pop fun _ => bindW pop fun _ => bindW pop fun _ => bindW pop fun _ =>
      appendText _ _ _
  case h_6 => exact val
  case h_7 => exact pureN (by decide)

end Pas.Eff
