import Verif.Lemmas.Shift
import Verif.Model.FloatOps
import Verif.Model.SetOps
import Verif.Model.LongOps
import Verif.Model.Strings

/-! The library routines leave the program counter, the constant base and the memory map alone and
do not look at the first two. -/
namespace Pas.Eff

/-- Only memory, stack pointers, the free list and, if `fl`, the files differ. -/
structure Same (fl : Bool) (s s' : VM) : Prop where
  eq : s' = { s with mem := s'.mem, sp := s'.sp, csp := s'.csp, hsp := s'.hsp, freeChunks := s'.freeChunks, io := s'.io }
  io : fl = false → s'.io = s.io

variable {fl : Bool}

theorem Same.refl (s : VM) : Same fl s s := ⟨rfl, fun _ => rfl⟩
theorem Same.trans {a b c : VM} (h : Same fl a b) (h' : Same fl b c) : Same fl a c := by
  refine ⟨?_, fun e => (h'.io e).trans (h.io e)⟩
  rw [h'.eq, h.eq]

theorem Same.keep {a b : VM} (h : Same fl a b) : Keep a b := by
  rw [h.eq]
  exact ⟨rfl, rfl, rfl, rfl, rfl, rfl, rfl, rfl, id⟩

theorem Same.pc {a b : VM} (h : Same fl a b) : b.pc = a.pc := by rw [h.eq]

/-- Relations between the outcomes of a routine in two states that differ in program counter and
constant base. -/
class Tr {α : Type} (fl : outParam Bool) (Q : Word → Word → VM → α → α → Prop) : Prop where
  tr : ∀ k ro a b x y, Same fl a b → Q k ro b x y → Q k ro a x y

/-- The result is a value: the same in both states. -/
def QR' {α : Type} (_ : Bool) : Word → Word → VM → α → α → Prop := fun _ _ _ x y => y = x
/-- The result is a state. -/
def QU' (fl : Bool) : Word → Word → VM → VM → VM → Prop := fun k ro s x y => y = shift k ro x ∧ Same fl s x
/-- A value and a state. -/
def QW' {α : Type} (fl : Bool) : Word → Word → VM → α × VM → α × VM → Prop :=
  fun k ro s x y => y.1 = x.1 ∧ y.2 = shift k ro x.2 ∧ Same fl s x.2
/-- A state and a value. -/
def QV' {α : Type} (fl : Bool) : Word → Word → VM → VM × α → VM × α → Prop :=
  fun k ro s x y => y.1 = shift k ro x.1 ∧ y.2 = x.2 ∧ Same fl s x.1
/-- Two values and a state. -/
def QT' {α β : Type} (fl : Bool) : Word → Word → VM → α × β × VM → α × β × VM → Prop :=
  fun k ro s x y => y.1 = x.1 ∧ y.2.1 = x.2.1 ∧ y.2.2 = shift k ro x.2.2 ∧ Same fl s x.2.2

/-- An error code other than "illegal opcode" and a state. -/
def QN' (fl : Bool) : Word → Word → VM → Nat × VM → Nat × VM → Prop :=
  fun k ro s x y => y.1 = x.1 ∧ y.2 = shift k ro x.2 ∧ Same fl s x.2 ∧ x.1 ≠ eILLEGALOPCODE

local notation "QR" => QR' fl
local notation "QU" => QU' fl
local notation "QW" => QW' fl
local notation "QV" => QV' fl
local notation "QT" => QT' fl
local notation "QN" => QN' fl

instance {α : Type} : Tr fl (QR' (α := α) fl) := ⟨fun _ _ _ _ _ _ _ h => h⟩
instance : Tr fl QN := ⟨fun _ _ _ _ _ _ e h => ⟨h.1, h.2.1, e.trans h.2.2.1, h.2.2.2⟩⟩
instance : Tr fl QU := ⟨fun _ _ _ _ _ _ e h => ⟨h.1, e.trans h.2⟩⟩
instance {α : Type} : Tr fl (QW' (α := α) fl) := ⟨fun _ _ _ _ _ _ e h => ⟨h.1, h.2.1, e.trans h.2.2⟩⟩
instance {α : Type} : Tr fl (QV' (α := α) fl) := ⟨fun _ _ _ _ _ _ e h => ⟨h.1, h.2.1, e.trans h.2.2⟩⟩
instance {α β : Type} : Tr fl (QT' (α := α) (β := β) fl) :=
  ⟨fun _ _ _ _ _ _ e h => ⟨h.1, h.2.1, h.2.2.1, e.trans h.2.2.2⟩⟩

/-- The routine respects the relation. -/
def X {α : Type} (Q : Word → Word → VM → α → α → Prop) (h : VM → Res α) : Prop :=
  ∀ k ro s, Res.Rel (Q k ro s) (h s) (h (shift k ro s))

section
variable {α β γ δ : Type} {Q : Word → Word → VM → β → β → Prop}

theorem rel_bind {P : α → γ → Prop} {R : β → δ → Prop} {r : Res α} {r' : Res γ} {f : α → Res β} {f' : γ → Res δ}
    (h : Res.Rel P r r') (hf : ∀ a a', P a a' → Res.Rel R (f a) (f' a')) : Res.Rel R (r >>= f) (r' >>= f') := by
  cases r <;> cases r' <;> first | exact hf _ _ h | exact h | trivial

theorem rel_mono {P R : α → γ → Prop} {r : Res α} {r' : Res γ} (h : Res.Rel P r r') (hf : ∀ a a', P a a' → R a a') :
    Res.Rel R r r' := by
  cases r <;> cases r' <;> first | exact hf _ _ h | exact h | trivial

theorem bindR [Tr fl Q] {h : VM → Res α} {f : α → VM → Res β} (hh : X QR h) (hf : ∀ a, X Q (f a)) :
    X Q (fun s => h s >>= fun a => f a s) := by
  intro k ro s
  refine rel_bind (hh k ro s) fun a a' e => ?_
  cases (e : a' = a)
  exact hf a k ro s

theorem bindU [Tr fl Q] {h : VM → Res VM} {f : VM → Res β} (hh : X QU h) (hf : X Q f) :
    X Q (fun s => h s >>= f) := by
  intro k ro s
  refine rel_bind (hh k ro s) fun a a' e => ?_
  obtain ⟨rfl, e2⟩ := e
  exact rel_mono (hf k ro a) fun x y q => Tr.tr _ _ _ _ _ _ e2 q

theorem bindW [Tr fl Q] {h : VM → Res (α × VM)} {f : α × VM → Res β} (hh : X QW h)
    (hf : ∀ a, X Q (fun s => f (a, s))) : X Q (fun s => h s >>= f) := by
  intro k ro s
  refine rel_bind (hh k ro s) fun a a' e => ?_
  obtain ⟨a1, a2⟩ := a
  obtain ⟨b1, b2⟩ := a'
  obtain ⟨e1, e3, e2⟩ := e
  cases (e1 : b1 = a1)
  cases (e3 : b2 = shift k ro a2)
  exact rel_mono (hf a1 k ro a2) fun x y q => Tr.tr _ _ _ _ _ _ e2 q

theorem bindN [Tr fl Q] {h : VM → Res (Nat × VM)} {f : Nat × VM → Res β} (hh : X QN h)
    (hf : ∀ a, a ≠ eILLEGALOPCODE → X Q (fun s => f (a, s))) : X Q (fun s => h s >>= f) := by
  intro k ro s
  refine rel_bind (hh k ro s) fun a a' e => ?_
  obtain ⟨a1, a2⟩ := a
  obtain ⟨b1, b2⟩ := a'
  obtain ⟨e1, e3, e2, e4⟩ := e
  cases (e1 : b1 = a1)
  cases (e3 : b2 = shift k ro a2)
  exact rel_mono (hf a1 e4 k ro a2) fun x y q => Tr.tr _ _ _ _ _ _ e2 q

theorem bindV [Tr fl Q] {h : VM → Res (VM × α)} {f : VM × α → Res β} (hh : X QV h)
    (hf : ∀ a, X Q (fun s => f (s, a))) : X Q (fun s => h s >>= f) := by
  intro k ro s
  refine rel_bind (hh k ro s) fun a a' e => ?_
  obtain ⟨a2, a1⟩ := a
  obtain ⟨b2, b1⟩ := a'
  obtain ⟨e3, e1, e2⟩ := e
  cases (e1 : b1 = a1)
  cases (e3 : b2 = shift k ro a2)
  exact rel_mono (hf a1 k ro a2) fun x y q => Tr.tr _ _ _ _ _ _ e2 q

theorem bindT [Tr fl Q] {h : VM → Res (α × γ × VM)} {f : α × γ × VM → Res β} (hh : X QT h)
    (hf : ∀ a b, X Q (fun s => f (a, b, s))) : X Q (fun s => h s >>= f) := by
  intro k ro s
  refine rel_bind (hh k ro s) fun a a' e => ?_
  obtain ⟨a1, a2, a3⟩ := a
  obtain ⟨b1, b2, b3⟩ := a'
  obtain ⟨e1, e3, e4, e2⟩ := e
  cases (e1 : b1 = a1)
  cases (e3 : b2 = a2)
  cases (e4 : b3 = shift k ro a3)
  exact rel_mono (hf a1 a2 k ro a3) fun x y q => Tr.tr _ _ _ _ _ _ e2 q

/-- A component of the state that the shift does not move. -/
theorem fixed {φ : VM → γ} {F : γ → VM → Res β} (hp : ∀ k ro s, φ (shift k ro s) = φ s)
    (hf : ∀ c, X Q (F c)) : X Q (fun s => F (φ s) s) := by
  intro k ro s
  show Res.Rel _ (F (φ s) s) (F (φ (shift k ro s)) (shift k ro s))
  rw [hp]
  exact hf _ k ro s

theorem itec {c : Prop} {inst : VM → Decidable c} {f g : VM → Res β} (hf : X Q f) (hg : X Q g) :
    X Q (fun s => @ite _ c (inst s) (f s) (g s)) := by
  intro k ro s
  by_cases h : c
  · simp only [if_pos h]
    exact hf k ro s
  · simp only [if_neg h]
    exact hg k ro s

theorem itep {c : VM → Prop} {inst : ∀ s, Decidable (c s)} {f g : VM → Res β}
    (hc : ∀ k ro s, c (shift k ro s) ↔ c s) (hf : X Q f) (hg : X Q g) :
    X Q (fun s => @ite _ (c s) (inst s) (f s) (g s)) := by
  intro k ro s
  by_cases h : c s
  · simp only [if_pos h, if_pos ((hc k ro s).mpr h)]
    exact hf k ro s
  · simp only [if_neg h, if_neg (fun x => h ((hc k ro s).mp x))]
    exact hg k ro s

theorem ub : X Q (fun _ => .ub) := fun _ _ _ => trivial
theorem hang : X Q (fun _ => .hang) := fun _ _ _ => trivial

theorem pureR {a : α} : X QR (fun _ => (.ok a : Res α)) := fun _ _ _ => rfl
theorem pureU : X QU (fun s => .ok s) := fun _ _ s => ⟨rfl, .refl s⟩
theorem pureW {a : α} : X QW (fun s => .ok (a, s)) := fun _ _ s => ⟨rfl, rfl, .refl s⟩
theorem pureN {a : Nat} (h : a ≠ eILLEGALOPCODE) : X QN (fun s => .ok (a, s)) :=
  fun _ _ s => ⟨rfl, rfl, .refl s, h⟩
theorem pureN_discard {a n : Nat} (h : a ≠ eILLEGALOPCODE) : X QN (fun s => .ok (a, s.discard n)) :=
  fun _ _ _ => ⟨rfl, rfl, ⟨rfl, fun _ => rfl⟩, h⟩
theorem pureU_free {o : Option Nat} : X QU (fun s => .ok { s with freeChunks := o }) :=
  fun _ _ _ => ⟨rfl, ⟨rfl, fun _ => rfl⟩⟩
theorem ofPt {h : VM → Res β} (H : ∀ k ro s, Res.Rel (Q k ro s) (h s) (h (shift k ro s))) : X Q h := H
theorem ofX {h : VM → Res β} (H : X Q h) : ∀ k ro s, Res.Rel (Q k ro s) (h s) (h (shift k ro s)) := H
theorem res {r : Res α} : X QR (fun _ => r) := by
  intro k ro s
  show Res.Rel _ r r
  cases r <;> first | exact rfl | trivial
theorem pureV {a : α} : X QV (fun s => .ok (s, a)) := fun _ _ s => ⟨rfl, rfl, .refl s⟩
theorem pureT {a : α} {b : γ} : X QT (fun s => .ok (a, b, s)) := fun _ _ s => ⟨rfl, rfl, rfl, .refl s⟩

/-- Changing the moving parts of the state first. -/
theorem chg [Tr fl Q] {u : VM → VM} {f : VM → Res β} (hu : ∀ k ro s, u (shift k ro s) = shift k ro (u s))
    (hs : ∀ s, Same fl s (u s)) (hf : X Q f) : X Q (fun s => f (u s)) := by
  intro k ro s
  show Res.Rel _ _ (f (u (shift k ro s)))
  rw [hu]
  exact rel_mono (hf k ro (u s)) fun x y q => Tr.tr _ _ _ _ _ _ (hs s) q

end

/-! ### Primitive accesses -/

theorem rd (i : Nat) : X QR (fun s => s.rd i) := by
  intro k ro s
  show Res.Rel _ (if i < s.words then _ else _) (if i < s.words then _ else _)
  split
  · exact rfl
  · trivial

theorem rdB (i : Nat) : X QR (fun s => s.rdB i) := by
  intro k ro s
  show Res.Rel _ (if i < 2 * s.words then _ else _) (if i < 2 * s.words then _ else _)
  split
  · exact rfl
  · trivial

theorem tos (i : Nat) : X QR (fun s => s.tos i) := by
  intro k ro s
  show Res.Rel _ (if i ≤ s.top then _ else _) (if i ≤ s.top then _ else _)
  split
  · exact rd _ k ro s
  · trivial

theorem wr (i : Nat) (w : Word) : X QU (fun s => s.wr i w) := by
  intro k ro s
  show Res.Rel _ (if i < s.words then _ else _) (if i < s.words then _ else _)
  split
  · exact ⟨rfl, ⟨rfl, fun _ => rfl⟩⟩
  · trivial

theorem wrB (i : Nat) (w : Byte) : X QU (fun s => s.wrB i w) := by
  intro k ro s
  show Res.Rel _ (if i < 2 * s.words then _ else _) (if i < 2 * s.words then _ else _)
  split
  · exact ⟨rfl, ⟨rfl, fun _ => rfl⟩⟩
  · trivial

theorem setTos (i : Nat) (w : Word) : X QU (fun s => s.setTos i w) := by
  intro k ro s
  show Res.Rel _ (if i ≤ s.top then _ else _) (if i ≤ s.top then _ else _)
  split
  · exact wr _ w k ro s
  · trivial

theorem push (w : Word) : X QU (fun s => s.push w) := by
  intro k ro s
  refine rel_mono (wr (fl := fl) _ w k ro { s with sp := s.sp + 2#16 }) fun x y q => ⟨q.1, ?_⟩
  exact Same.trans (b := { s with sp := s.sp + 2#16 }) ⟨rfl, fun _ => rfl⟩ q.2

theorem pop : X QW (fun s => s.pop) := by
  intro k ro s
  show Res.Rel _ (s.rd s.top >>= _) ((shift k ro s).rd s.top >>= _)
  refine rel_bind (rd (fl := fl) s.top k ro s) fun a a' e => ?_
  cases (e : a' = a)
  exact ⟨rfl, rfl, ⟨rfl, fun _ => rfl⟩⟩

theorem ptr (i : Nat) : X QR (fun s => SetOps.ptr s i) := by
  intro k ro s
  show Res.Rel _ (if i ≤ s.top then _ else _) (if i ≤ s.top then _ else _)
  split
  · exact rfl
  · trivial

/-- The known routines with an error code. -/
syntax "eff_n" : tactic

/-- Prove that a routine built from known ones respects the relation. -/
syntax "eff_step" : tactic

theorem shift_hs (k ro : Word) (s : VM) : Heap.heapStart (shift k ro s) = Heap.heapStart s := rfl
theorem shift_words (k ro : Word) (s : VM) : (shift k ro s).words = s.words := rfl
theorem shift_hpSize (k ro : Word) (s : VM) : (shift k ro s).hpSize = s.hpSize := rfl
theorem shift_free (k ro : Word) (s : VM) : (shift k ro s).freeChunks = s.freeChunks := rfl
theorem shift_spb' (k ro : Word) (s : VM) : (shift k ro s).spb = s.spb := rfl
theorem shift_csp' (k ro : Word) (s : VM) : (shift k ro s).csp = s.csp := rfl
theorem shift_nextPtr (k ro : Word) (s : VM) (n : Nat) : Heap.nextPtr (shift k ro s) n = Heap.nextPtr s n := rfl

macro "eff_fix" : tactic => `(tactic| first
    | (refine ofPt (fun k ro s => ?_); simp only [shift_hs]; generalize Heap.heapStart s = c; revert k ro s; refine ofX ?_)
    | (refine ofPt (fun k ro s => ?_); simp only [shift_words]; generalize VM.words s = c; revert k ro s; refine ofX ?_)
    | (refine ofPt (fun k ro s => ?_); simp only [shift_hpSize]; generalize VM.hpSize s = c; revert k ro s; refine ofX ?_)
    | (refine ofPt (fun k ro s => ?_); simp only [shift_spb']; generalize VM.spb s = c; revert k ro s; refine ofX ?_)
    | (refine ofPt (fun k ro s => ?_); simp only [shift_csp']; generalize VM.csp s = c; revert k ro s; refine ofX ?_))

macro_rules | `(tactic| eff_step) => `(tactic| with_reducible first
    | assumption
    | intro _
    | exact rd _ | exact rdB _ | exact tos _ | exact wr _ _ | exact wrB _ _ | exact setTos _ _
    | exact push _ | exact pop | exact ptr _
    | exact pureR | exact pureU | exact pureW | exact pureV | exact pureT | exact ub | exact hang
    | exact pureN_discard (by decide) | exact pureN_discard (by assumption)
    | exact pureN (by decide) | exact pureN (by assumption) | exact pureU_free
    | exact res
    | dsimp +instances only [Res.pure_eq]
    | refine itec ?_ ?_
    | refine itep (by with_unfolding_all exact fun _ _ _ => Iff.rfl) ?_ ?_
    | eff_fix
    | refine bindU ?_ ?_
    | refine bindN (by eff_n) (fun _ _ => ?_)
    | refine bindW ?_ (fun _ => ?_)
    | refine bindV ?_ (fun _ => ?_)
    | refine bindT ?_ (fun _ _ => ?_)
    | refine bindR ?_ (fun _ => ?_))

macro "eff" : tactic => `(tactic| repeat' eff_step)

/-! ### Floating point -/

theorem getArg (b : Bool) : X QW (fun s => FloatOps.getArg s b) := by
  unfold FloatOps.getArg
  eff
macro_rules | `(tactic| eff_step) => `(tactic| with_reducible exact getArg _)

theorem pushF (v : FloatOps.Real) : X QU (fun s => FloatOps.pushF s v) := by
  unfold FloatOps.pushF
  eff
macro_rules | `(tactic| eff_step) => `(tactic| with_reducible exact pushF _)

theorem get2 (b : Byte) : X QW (fun s => FloatOps.get2 s b) := by
  unfold FloatOps.get2
  eff
macro_rules | `(tactic| eff_step) => `(tactic| with_reducible exact get2 _)

theorem arith2 (b : Byte) (f) : X QN (fun s => FloatOps.arith2 s b f) := by
  unfold FloatOps.arith2
  eff

theorem arith1 (b : Byte) (f) : X QN (fun s => FloatOps.arith1 s b f) := by
  unfold FloatOps.arith1
  eff

theorem compare2 (b : Byte) (f) : X QN (fun s => FloatOps.compare2 s b f) := by
  unfold FloatOps.compare2
  eff

theorem floatOps (fpu : FloatOps.Fpu) (b : Byte) : X QN (fun s => FloatOps.floatOps fpu s b) := by
  unfold FloatOps.floatOps
  generalize b.toNat % 64 = n
  split
  all_goals first
    | exact arith2 _ _ | exact arith1 _ _ | exact compare2 _ _ | eff

/-! ### Sets -/

theorem discard {β : Type} {Q : Word → Word → VM → β → β → Prop} [Tr fl Q] (n : Nat) {f : VM → Res β} (hf : X Q f) :
    X Q (fun s => f (s.discard n)) := chg (fun _ _ _ => rfl) (fun _ => ⟨rfl, fun _ => rfl⟩) hf

theorem grow {β : Type} {Q : Word → Word → VM → β → β → Prop} [Tr fl Q] {f : VM → Res β} (hf : X Q f) :
    X Q (fun s => f (SetOps.grow s)) := chg (fun _ _ _ => rfl) (fun _ => ⟨rfl, fun _ => rfl⟩) hf

theorem zip4 (a b : Nat) (f) : X QU (fun s => SetOps.zip4 s a b f) := by
  unfold SetOps.zip4
  eff
macro_rules | `(tactic| eff_step) => `(tactic| with_reducible exact zip4 _ _ _)

theorem rd4 (a : Nat) : X QR (fun s => SetOps.rd4 s a) := by
  unfold SetOps.rd4
  eff
macro_rules | `(tactic| eff_step) => `(tactic| with_reducible exact rd4 _)

theorem compare (a b c : Nat) (f) (n : Bool) : X QU (fun s => SetOps.compare s a b c f n) := by
  unfold SetOps.compare
  eff
macro_rules | `(tactic| eff_step) => `(tactic| with_reducible exact compare _ _ _ _ _)

theorem member (m : Word) (a b : Nat) : X QN (fun s => SetOps.member s m a b) := by
  unfold SetOps.member
  eff
macro_rules | `(tactic| eff_step) => `(tactic| with_reducible exact member _ _ _)
macro_rules | `(tactic| eff_n) => `(tactic| with_reducible exact member _ _ _)

theorem incl (m : Word) (a : Nat) : X QN (fun s => SetOps.incl s m a) := by
  unfold SetOps.incl
  eff
macro_rules | `(tactic| eff_step) => `(tactic| with_reducible exact incl _ _)
macro_rules | `(tactic| eff_n) => `(tactic| with_reducible exact incl _ _)

theorem excl (m : Word) (a : Nat) : X QN (fun s => SetOps.excl s m a) := by
  unfold SetOps.excl
  eff
macro_rules | `(tactic| eff_step) => `(tactic| with_reducible exact excl _ _)
macro_rules | `(tactic| eff_n) => `(tactic| with_reducible exact excl _ _)

theorem card (a b : Nat) : X QU (fun s => SetOps.card s a b) := by
  unfold SetOps.card
  eff
macro_rules | `(tactic| eff_step) => `(tactic| with_reducible exact card _ _)

theorem clear4 (a : Nat) : X QU (fun s => SetOps.clear4 s a) := by
  unfold SetOps.clear4
  eff
macro_rules | `(tactic| eff_step) => `(tactic| with_reducible exact clear4 _)

theorem singleton (m n : Word) (a : Nat) : X QN (fun s => SetOps.singleton s m n a) := by
  unfold SetOps.singleton
  eff
macro_rules | `(tactic| eff_step) => `(tactic| with_reducible exact singleton _ _ _)
macro_rules | `(tactic| eff_n) => `(tactic| with_reducible exact singleton _ _ _)

theorem subLoop (t : Int) (m : Word) (fuel : Nat) : ∀ (w : Nat) (n b : Int) (k : Word),
    X QU (fun s => SetOps.subLoop t m fuel s w n b k) := by
  induction fuel with
  | zero => intro w n b k; exact hang
  | succ fuel ih =>
    intro w n b k
    simp only [SetOps.subLoop]
    eff
    all_goals exact ih _ _ _ _
macro_rules | `(tactic| eff_step) => `(tactic| with_reducible exact subLoop _ _ _ _ _ _ _)

theorem subrange (m n o : Word) (a : Nat) : X QN (fun s => SetOps.subrange s m n o a) := by
  unfold SetOps.subrange
  eff
macro_rules | `(tactic| eff_step) => `(tactic| with_reducible exact subrange _ _ _ _)
macro_rules | `(tactic| eff_n) => `(tactic| with_reducible exact subrange _ _ _ _)

theorem setOps (b : Byte) : X QN (fun s => SetOps.setOps s b) := by
  unfold SetOps.setOps
  generalize b.toNat = n
  split
  case h_13 | h_14 =>
    eff
    · exact grow (f := fun s => SetOps.ptr s 3) (ptr _)
    · first
        | exact grow (f := fun s => SetOps.singleton s _ _ _) (singleton _ _ _)
        | exact grow (f := fun s => SetOps.subrange s _ _ _ _) (subrange _ _ _ _)
  all_goals eff

/-! ### Long integers -/

macro "hyps_omega" : tactic => `(tactic|
  (repeat (rename_i h; replace h : ¬ _ := h; revert h)
   intros
   omega))

theorem pop32 : X QW LongOps.pop32 := by
  unfold LongOps.pop32
  eff
macro_rules | `(tactic| eff_step) => `(tactic| with_reducible exact pop32)

theorem push32 (v : LongOps.Long) : X QU (fun s => LongOps.push32 s v) := by
  unfold LongOps.push32
  eff
macro_rules | `(tactic| eff_step) => `(tactic| with_reducible exact push32 _)

theorem getTos32 (n : Nat) : X QR (fun s => LongOps.getTos32 s n) := by
  unfold LongOps.getTos32
  eff
macro_rules | `(tactic| eff_step) => `(tactic| with_reducible exact getTos32 _)

theorem putTos32 (v : LongOps.Long) (n : Nat) : X QU (fun s => LongOps.putTos32 s v n) := by
  unfold LongOps.putTos32
  eff
macro_rules | `(tactic| eff_step) => `(tactic| with_reducible exact putTos32 _ _)

theorem unop32 (f) : X QN (fun s => LongOps.unop32 s f) := by
  unfold LongOps.unop32
  eff
macro_rules | `(tactic| eff_step) => `(tactic| with_reducible exact unop32 _)

theorem binop32 (f) : X QN (fun s => LongOps.binop32 s f) := by
  unfold LongOps.binop32
  eff
macro_rules | `(tactic| eff_step) => `(tactic| with_reducible exact binop32 _)

theorem shift32 (f) : X QN (fun s => LongOps.shift32 s f) := by
  unfold LongOps.shift32
  eff
macro_rules | `(tactic| eff_step) => `(tactic| with_reducible exact shift32 _)

theorem cmpz32 (f) : X QN (fun s => LongOps.cmpz32 s f) := by
  unfold LongOps.cmpz32
  eff
macro_rules | `(tactic| eff_step) => `(tactic| with_reducible exact cmpz32 _)

theorem cmp32 (f) : X QN (fun s => LongOps.cmp32 s f) := by
  unfold LongOps.cmp32
  eff
macro_rules | `(tactic| eff_step) => `(tactic| with_reducible exact cmp32 _)

theorem longOps8 (b : Byte) (h1 : 0x40 ≤ b.toNat) (h2 : b.toNat ≤ 0x68) : X QN (fun s => LongOps.longOps8 s b) := by
  unfold LongOps.longOps8
  generalize b.toNat = n at *
  split
  all_goals first
    | exact unop32 _ | exact binop32 _ | exact shift32 _ | exact cmpz32 _ | exact cmp32 _ | (exfalso; hyps_omega) | eff

theorem weakN {h : VM → Res (Nat × VM)} (H : X QN h) : X QW h :=
  fun k ro s => rel_mono (H k ro s) fun _ _ q => ⟨q.1, q.2.1, q.2.2.1⟩

theorem longOps8_all (b : Byte) : X QW (fun s => LongOps.longOps8 s b) := by
  by_cases h : 0x40 ≤ b.toNat ∧ b.toNat ≤ 0x68
  · exact weakN (longOps8 b h.1 h.2)
  · unfold LongOps.longOps8
    generalize b.toNat = n at *
    split
    all_goals first
      | (exfalso; hyps_omega)
      | exact pureW

/-! ### Heap -/

theorem rdF (p k : Nat) : X QR (fun s => Heap.rdF s p k) := by
  unfold Heap.rdF
  eff
macro_rules | `(tactic| eff_step) => `(tactic| with_reducible exact rdF _ _)
theorem wrF (p k v : Nat) : X QU (fun s => Heap.wrF s p k v) := by
  unfold Heap.wrF
  eff
macro_rules | `(tactic| eff_step) => `(tactic| with_reducible exact wrF _ _ _)
theorem getFwd (p : Nat) : X QR (fun s => Heap.getFwd s p) := by
  unfold Heap.getFwd
  eff
macro_rules | `(tactic| eff_step) => `(tactic| with_reducible exact getFwd _)
theorem getUse (p : Nat) : X QR (fun s => Heap.getUse s p) := by
  unfold Heap.getUse
  eff
macro_rules | `(tactic| eff_step) => `(tactic| with_reducible exact getUse _)
theorem getBack (p : Nat) : X QR (fun s => Heap.getBack s p) := by
  unfold Heap.getBack
  eff
macro_rules | `(tactic| eff_step) => `(tactic| with_reducible exact getBack _)
theorem getAddr (p : Nat) : X QR (fun s => Heap.getAddr s p) := by
  unfold Heap.getAddr
  eff
macro_rules | `(tactic| eff_step) => `(tactic| with_reducible exact getAddr _)
theorem getPrev (p : Nat) : X QR (fun s => Heap.getPrev s p) := by
  unfold Heap.getPrev
  eff
macro_rules | `(tactic| eff_step) => `(tactic| with_reducible exact getPrev _)
theorem getNext (p : Nat) : X QR (fun s => Heap.getNext s p) := by
  unfold Heap.getNext
  eff
macro_rules | `(tactic| eff_step) => `(tactic| with_reducible exact getNext _)
theorem setFwd (p v : Nat) : X QU (fun s => Heap.setFwd s p v) := by
  unfold Heap.setFwd
  eff
macro_rules | `(tactic| eff_step) => `(tactic| with_reducible exact setFwd _ _)
theorem setUse (p : Nat) (v : Bool) : X QU (fun s => Heap.setUse s p v) := by
  unfold Heap.setUse
  eff
macro_rules | `(tactic| eff_step) => `(tactic| with_reducible exact setUse _ _)
theorem setBack (p v : Nat) : X QU (fun s => Heap.setBack s p v) := by
  unfold Heap.setBack
  eff
macro_rules | `(tactic| eff_step) => `(tactic| with_reducible exact setBack _ _)
theorem setAddr (p v : Nat) : X QU (fun s => Heap.setAddr s p v) := by
  unfold Heap.setAddr
  eff
macro_rules | `(tactic| eff_step) => `(tactic| with_reducible exact setAddr _ _)
theorem setPrev (p v : Nat) : X QU (fun s => Heap.setPrev s p v) := by
  unfold Heap.setPrev
  eff
macro_rules | `(tactic| eff_step) => `(tactic| with_reducible exact setPrev _ _)
theorem setNext (p v : Nat) : X QU (fun s => Heap.setNext s p v) := by
  unfold Heap.setNext
  eff
macro_rules | `(tactic| eff_step) => `(tactic| with_reducible exact setNext _ _)

theorem nextPtr_eq (s : VM) (n : Nat) :
    Heap.nextPtr s n = if n = 0 then none else some ((Heap.heapStart s + n) % 65536) := rfl

theorem findSlot (nf fuel : Nat) : ∀ (p c : Option Nat), X QR (fun s => Heap.findSlot s nf fuel p c) := by
  induction fuel with
  | zero => intro p c; exact hang
  | succ fuel ih =>
    intro p c
    cases c with
    | none => exact pureR
    | some f =>
      simp only [Heap.findSlot, nextPtr_eq]
      eff
      all_goals exact ih _ _
macro_rules | `(tactic| eff_step) => `(tactic| with_reducible exact findSlot _ _ _ _)

/-- Setting the head of the free list. -/
def wf (o : Option Nat) (s : VM) : VM := { s with freeChunks := o }
theorem wf_def (o : Option Nat) (s : VM) : ({ s with freeChunks := o } : VM) = wf o s := rfl
theorem wf_ok (o : Option Nat) : X QU (fun s => .ok (wf o s)) := fun _ _ _ => ⟨rfl, ⟨rfl, fun _ => rfl⟩⟩
theorem wf_setPrev (o : Option Nat) (p v : Nat) : X QU (fun s => Heap.setPrev (wf o s) p v) :=
  chg (fun _ _ _ => rfl) (fun _ => ⟨rfl, fun _ => rfl⟩) (f := fun s => Heap.setPrev s p v) (setPrev p v)
macro_rules | `(tactic| eff_step) => `(tactic| with_reducible exact wf_ok _)
macro_rules | `(tactic| eff_step) => `(tactic| with_reducible exact wf_setPrev _ _ _)

theorem addChunk (n : Nat) : X QU (fun s => Heap.addChunk s n) := by
  unfold Heap.addChunk
  refine bindR (getFwd _) fun nf => ?_
  refine ofPt (fun k ro s => ?_)
  simp only [shift_free]
  generalize VM.freeChunks s = c
  revert k ro s
  refine ofX ?_
  refine bindR (findSlot _ _ _ _) fun x => ?_
  obtain ⟨prev, found⟩ := x
  rcases found with _ | ⟨f, _ | n⟩ <;> rcases prev with _ | p
  all_goals eff
macro_rules | `(tactic| eff_step) => `(tactic| with_reducible exact addChunk _)

theorem removeChunk (n : Nat) : X QU (fun s => Heap.removeChunk s n) := by
  unfold Heap.removeChunk
  simp only [wf_def]
  eff
macro_rules | `(tactic| eff_step) => `(tactic| with_reducible exact removeChunk _)

theorem mergePrev (n : Nat) (x : Option Nat) : X QV (fun s => Heap.mergePrev s n x) := by
  unfold Heap.mergePrev
  cases x
  all_goals eff
macro_rules | `(tactic| eff_step) => `(tactic| with_reducible exact mergePrev _ _)

theorem mergeNext (n : Nat) (x : Option Nat) (b : Bool) : X QU (fun s => Heap.mergeNext s n x b) := by
  unfold Heap.mergeNext
  cases x
  all_goals eff
macro_rules | `(tactic| eff_step) => `(tactic| with_reducible exact mergeNext _ _ _)

theorem disposeChunk (n : Nat) : X QU (fun s => Heap.disposeChunk s n) := by
  unfold Heap.disposeChunk
  eff
macro_rules | `(tactic| eff_step) => `(tactic| with_reducible exact disposeChunk _)

theorem split' (n m : Nat) : X QU (fun s => Heap.split s n m) := by
  unfold Heap.split
  eff
macro_rules | `(tactic| eff_step) => `(tactic| with_reducible exact split' _ _)

theorem allocLoop (size fuel : Nat) : ∀ (c : Option Nat), X QW (fun s => Heap.allocLoop size fuel s c) := by
  induction fuel with
  | zero => intro c; exact hang
  | succ fuel ih =>
    intro c
    cases c with
    | none => exact pureW
    | some f =>
      simp only [Heap.allocLoop, nextPtr_eq]
      eff
      all_goals exact ih _

theorem alloc (size : Nat) : X QW (fun s => Heap.alloc s size) := by
  unfold Heap.alloc
  refine ofPt (fun k ro s => ?_)
  simp only [shift_free]
  generalize VM.freeChunks s = c
  revert k ro s
  refine ofX ?_
  exact allocLoop _ _ _
macro_rules | `(tactic| eff_step) => `(tactic| with_reducible exact alloc _)

theorem free (a : Nat) : X QN (fun s => Heap.free s a) := by
  unfold Heap.free
  eff
macro_rules | `(tactic| eff_step) => `(tactic| with_reducible exact free _)
macro_rules | `(tactic| eff_n) => `(tactic| with_reducible exact free _)

theorem new (a : Nat) : X QN (fun s => Heap.new s a) := by
  unfold Heap.new
  eff
  split <;> eff

theorem allocTmpString (a : Nat) : X QT (fun s => Heap.allocTmpString s a) := by
  unfold Heap.allocTmpString
  eff
macro_rules | `(tactic| eff_step) => `(tactic| with_reducible exact allocTmpString _)

theorem freeTmpString (a b : Nat) : X QN (fun s => Heap.freeTmpString s a b) := by
  unfold Heap.freeTmpString
  eff
macro_rules | `(tactic| eff_step) => `(tactic| with_reducible exact freeTmpString _ _)
macro_rules | `(tactic| eff_n) => `(tactic| with_reducible exact freeTmpString _ _)

/-! ### Strings -/

theorem readBytes (n : Nat) : ∀ a, X QR (fun s => Str.readBytes s a n) := by
  induction n with
  | zero => intro a; exact pureR
  | succ n ih =>
    intro a
    simp only [Str.readBytes]
    refine bindR (rdB _) fun _ => bindR (ih _) fun _ => ?_
    eff
macro_rules | `(tactic| eff_step) => `(tactic| with_reducible exact readBytes _ _)

theorem copyIn (bs : List Byte) : ∀ a, X QU (fun s => Pas.copyIn s a bs) := by
  induction bs with
  | nil => intro a; exact pureU
  | cons b bs ih =>
    intro a
    simp only [Pas.copyIn]
    exact bindU (wrB _ _) (ih _)
macro_rules | `(tactic| eff_step) => `(tactic| with_reducible exact copyIn _ _)

theorem memcpy (d a n : Nat) : X QU (fun s => Str.memcpy s d a n) := by
  unfold Str.memcpy
  eff
macro_rules | `(tactic| eff_step) => `(tactic| with_reducible exact memcpy _ _ _)

theorem copyUp (n : Nat) : ∀ d a, X QU (fun s => Str.copyUp s d a n) := by
  induction n with
  | zero => intro d a; exact pureU
  | succ n ih =>
    intro d a
    simp only [Str.copyUp]
    exact bindR (rdB _) fun _ => bindU (wrB _ _) (ih _ _)
macro_rules | `(tactic| eff_step) => `(tactic| with_reducible exact copyUp _ _ _)

theorem copyDown (n : Nat) : ∀ d a, X QU (fun s => Str.copyDown s d a n) := by
  induction n with
  | zero => intro d a; exact pureU
  | succ n ih =>
    intro d a
    simp only [Str.copyDown]
    exact bindR (rdB _) fun _ => bindU (wrB _ _) (ih _ _)
macro_rules | `(tactic| eff_step) => `(tactic| with_reducible exact copyDown _ _ _)

theorem fill (b : Byte) (n : Nat) : ∀ d, X QU (fun s => Str.fill s d b n) := by
  induction n with
  | zero => intro d; exact pureU
  | succ n ih =>
    intro d
    simp only [Str.fill]
    exact bindU (wrB _ _) (ih _)
macro_rules | `(tactic| eff_step) => `(tactic| with_reducible exact fill _ _ _)

theorem freeTmp (a b : Word) : X QU (fun s => Str.freeTmp s a b) := by
  unfold Str.freeTmp
  eff
macro_rules | `(tactic| eff_step) => `(tactic| with_reducible exact freeTmp _ _)

/-- Setting the string stack pointer. -/
def wc (o : Word) (s : VM) : VM := { s with csp := o }
theorem wc_def (o : Word) (s : VM) : ({ s with csp := o } : VM) = wc o s := rfl
theorem wc_U (o : Word) {f : VM → Res VM} (h : X QU f) : X QU (fun s => f (wc o s)) :=
  chg (fun _ _ _ => rfl) (fun _ => ⟨rfl, fun _ => rfl⟩) h

theorem strInit (v n : Word) : X QN (fun s => Str.strInit s v n) := by
  unfold Str.strInit
  simp only [wc_def]
  eff
  exact wc_U _ (wr _ _)
macro_rules | `(tactic| eff_n) => `(tactic| with_reducible exact strInit _ _)

theorem strCpy (a b c d : Word) : X QU (fun s => Str.strCpy s a b c d) := by
  unfold Str.strCpy
  eff
macro_rules | `(tactic| eff_step) => `(tactic| with_reducible exact strCpy _ _ _ _)

theorem strnlen (n : Nat) : ∀ a, X QR (fun s => Str.strnlen s a n) := by
  induction n with
  | zero => intro a; exact pureR
  | succ n ih =>
    intro a
    simp only [Str.strnlen]
    refine bindR (rdB _) fun _ => itec ?_ (bindR (ih _) fun _ => ?_)
    all_goals eff
macro_rules | `(tactic| eff_step) => `(tactic| with_reducible exact strnlen _ _)

theorem bstr2Str (c : Str.Cfg) (a b : Word) : X QN (fun s => Str.bstr2Str c s a b) := by
  unfold Str.bstr2Str
  eff
macro_rules | `(tactic| eff_step) => `(tactic| with_reducible exact bstr2Str _ _ _)

theorem str2BStr (a b c d e : Word) : X QU (fun s => Str.str2BStr s a b c d e) := by
  unfold Str.str2BStr
  eff
macro_rules | `(tactic| eff_step) => `(tactic| with_reducible exact str2BStr _ _ _ _ _)

theorem strDup (c : Str.Cfg) (a b : Word) : X QN (fun s => Str.strDup c s a b) := by
  unfold Str.strDup
  eff
macro_rules | `(tactic| eff_n) => `(tactic| with_reducible exact strDup _ _ _)

theorem strCat (a b c d : Word) : X QN (fun s => Str.strCat s a b c d) := by
  unfold Str.strCat
  eff
macro_rules | `(tactic| eff_n) => `(tactic| with_reducible exact strCat _ _ _ _)

theorem strCatC (a : Byte) (b c : Word) : X QN (fun s => Str.strCatC s a b c) := by
  unfold Str.strCatC
  eff
macro_rules | `(tactic| eff_step) => `(tactic| with_reducible exact strCatC _ _ _)

theorem fillChar (a b : Word) (c : Byte) : X QN (fun s => Str.fillChar s a b c) := by
  unfold Str.fillChar
  eff
macro_rules | `(tactic| eff_step) => `(tactic| with_reducible exact fillChar _ _ _)

theorem mkCString (a b : Nat) (c : Bool) : X QW (fun s => Str.mkCString s a b c) := by
  unfold Str.mkCString
  cases c
  · simp only [Bool.false_eq_true, if_false]
    eff
  · simp only [if_true, wc_def]
    eff
    exact wc_U _ (memcpy _ _ _)
macro_rules | `(tactic| eff_step) => `(tactic| with_reducible exact mkCString _ _ _)

theorem cString (n : Nat) : ∀ a, X QR (fun s => Str.cString s n a) := by
  induction n with
  | zero => intro a; exact ub
  | succ n ih =>
    intro a
    simp only [Str.cString]
    refine bindR (rdB _) fun _ => itec ?_ (bindR (ih _) fun _ => ?_)
    all_goals eff
macro_rules | `(tactic| eff_step) => `(tactic| with_reducible exact cString _ _)

theorem copySubStr : X QN Str.copySubStr := by
  unfold Str.copySubStr
  eff

theorem insertStr : X QN Str.insertStr := by
  unfold Str.insertStr
  eff

theorem delSubStr : X QN Str.delSubStr := by
  unfold Str.delSubStr
  eff

theorem strCmp (c : Str.Cfg) : X QN (fun s => Str.strCmp c s) := by
  unfold Str.strCmp
  eff

/-- A value with a property. -/
def QP' {α : Type} (_ : Bool) (P : α → Prop) : Word → Word → VM → α → α → Prop := fun _ _ _ x y => y = x ∧ P x
local notation "QP" => QP' fl
instance {α : Type} (P : α → Prop) : Tr fl (QP P) := ⟨fun _ _ _ _ _ _ _ h => h⟩
theorem pureP {α : Type} {P : α → Prop} {a : α} (h : P a) : X (QP P) (fun _ => .ok a) := fun _ _ _ => ⟨rfl, h⟩
theorem bindP {α β : Type} {Q : Word → Word → VM → β → β → Prop} [Tr fl Q] {P : α → Prop} {h : VM → Res α}
    {f : α → VM → Res β} (hh : X (QP P) h) (hf : ∀ a, P a → X Q (f a)) : X Q (fun s => h s >>= fun a => f a s) := by
  intro k ro s
  refine rel_bind (hh k ro s) fun a a' e => ?_
  cases (e.1 : a' = a)
  exact hf a e.2 k ro s

theorem findSubStr : X QN Str.findSubStr := by
  unfold Str.findSubStr
  simp only [wc_def]
  refine bindW (Q := QN) pop fun pos => ?_
  dsimp +instances only
  refine bindW (Q := QN) pop fun alloc => ?_
  dsimp +instances only
  refine bindW (Q := QN) pop fun addr => ?_
  dsimp +instances only
  refine bindW (Q := QN) pop fun size => ?_
  dsimp +instances only
  refine bindW (Q := QN) pop fun alloc' => ?_
  dsimp +instances only
  refine bindW (Q := QN) pop fun addr' => ?_
  dsimp +instances only
  refine bindW (Q := QN) pop fun size' => ?_
  dsimp +instances only
  refine ofPt (fun k ro s => ?_)
  simp only [shift_csp']
  generalize VM.csp s = c
  revert k ro s
  refine ofX ?_
  refine bindW (Q := QN) (mkCString _ _ _) fun cs => ?_
  dsimp +instances only
  refine bindW (Q := QN) (mkCString _ _ _) fun cn => ?_
  dsimp +instances only
  refine bindP (Q := QN) (P := fun x => x.1 ≠ eILLEGALOPCODE) ?_ fun x hx => ?_
  · refine itec (pureP (by decide)) ?_
    rcases cs with _ | h
    · exact pureP (by decide)
    rcases cn with _ | n
    · exact pureP (by decide)
    dsimp +instances only
    refine ofPt (fun k ro s => ?_)
    simp only [shift_words]
    generalize VM.words s = c
    revert k ro s
    refine ofX ?_
    refine bindR (cString _ _) fun hs => bindR (cString _ _) fun ns => ?_
    rcases Str.strstr hs ns with _ | i
    · exact pureP (by decide)
    · exact pureP (show eNOERROR ≠ eILLEGALOPCODE by decide)
  · obtain ⟨e, off⟩ := x
    eff
    exact wc_U _ (push _)

theorem strOps (c : Str.Cfg) (w : Word) (h : ∀ w, X QN (fun s => c.other s w)) : X QN (fun s => Str.strOps c s w) := by
  unfold Str.strOps
  split
  case h_14 => exact strCmp c
  case h_16 => exact copySubStr
  case h_17 => exact findSubStr
  case h_18 => exact insertStr
  case h_19 => exact delSubStr
  all_goals first
    | with_reducible exact h _
    | eff

theorem osOps (other : VM → Byte → Res (Nat × VM)) (h : ∀ b, X QN (fun s => other s b)) (b : Byte) :
    X QN (fun s => Heap.osOps other s b) := by
  unfold Heap.osOps
  refine itec ?_ (itec ?_ (itec ?_ (h b)))
  · exact bindW pop fun _ => pureN (by decide)
  · exact bindW pop fun _ => new _
  · exact bindW pop fun _ => free _

/-! ### What the interpreter theorems ask of a library -/

theorem All_of_rel {α : Type} {Q : α → α → Prop} {P : α → Prop} {r r' : Res α} (h : Res.Rel Q r r')
    (hp : ∀ a a', Q a a' → P a) : Res.All P r := by
  cases r <;> cases r' <;> first | exact hp _ _ h | exact h.elim | trivial

theorem X.keep {h : VM → Res (Nat × VM)} (H : X QW h) (s : VM) : KeepR s (h s) :=
  All_of_rel (H 0#16 0#16 s) fun _ _ q => q.2.2.keep

theorem X.out {h : VM → Res (Nat × VM)} (H : X QW h) (k ro : Word) (s : VM) :
    Out k ro s.pc s.pc (h s) (h (shift k ro s)) :=
  rel_mono (H k ro s) fun _ _ q => ⟨q.1, q.2.1, fun _ => .inl q.2.2.pc⟩

theorem X.legal {h : VM → Res (Nat × VM)} (H : X QN h) (s s' : VM) : h s ≠ .ok (eILLEGALOPCODE, s') := by
  intro e
  have := H 0#16 0#16 s
  rw [e] at this
  exact (All_of_rel (r := .ok (eILLEGALOPCODE, s')) this fun _ _ q => q.2.2.2 : _) rfl

theorem longOps24_keep (s : VM) (b : Byte) (w : Word) : KeepR s (LongOps.longOps24 s b w) := by
  have hp : ∀ s, Res.All (fun x => Keep s x.2) (LongOps.pop32 s) := fun s =>
    All_of_rel (pop32 (fl := true) 0#16 0#16 s) fun _ _ q => q.2.2.keep
  have h1 : ∀ f, KeepR s (LongOps.djump1 s w f) := by
    intro f
    unfold LongOps.djump1
    have h := hp s
    cases e : LongOps.pop32 s with
    | ok p =>
      rw [e] at h
      exact Keep.upd (b := p.2) h _ _ _ _ _ _ _
    | ub => trivial
    | hang => trivial
  have h2 : ∀ f, KeepR s (LongOps.djump2 s w f) := by
    intro f
    unfold LongOps.djump2
    have h := hp s
    cases e : LongOps.pop32 s with
    | ok p =>
      rw [e] at h
      have h' := hp p.2
      simp only [Res.ok_bind]
      cases e' : LongOps.pop32 p.2 with
      | ok q =>
        rw [e'] at h'
        exact (Keep.trans (b := p.2) h h').upd _ _ _ _ _ _ _
      | ub => trivial
      | hang => trivial
    | ub => trivial
    | hang => trivial
  unfold LongOps.longOps24
  split
  all_goals first
    | exact h1 _
    | exact h2 _
    | exact (Keep.refl s).upd _ _ _ _ _ _ _
end Pas.Eff
