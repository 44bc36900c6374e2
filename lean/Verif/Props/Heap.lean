import Verif.Lemmas.Heap
import Verif.Props.Sets

/-! Heap properties C19, C20, C21. -/
namespace Pas
open Spec Heap

theorem osop_exec {lib : Lib} {other : VM → Byte → Res (Nat × VM)} (hlib : lib.osOps = osOps other)
    {code : List Byte} {maxpc : Word} {s : VM} {sub : Byte} (hi : Insn code maxpc s .osop sub 0) :
    execute lib code maxpc s = osOps other { s with pc := s.pc + 2#16 } sub := by
  rw [execute_16 (at_of_next hi.next) (by decide) (by decide) (hi.arg8 (by decide)), pexec16, hlib]

/-- The invariant of stack-like histories, with the positions hidden. -/
def HeapInv (live : List Block) (s : VM) : Prop := ∃ h t e last, Inv s h t e last live

theorem Inv.regs {s : VM} {h t e last : Nat} {live : List Block} (i : Inv s h t e last live)
    (pc sp : Word) : Inv { s with pc := pc, sp := sp } h t e last live := by
  obtain ⟨a1, a2, a3, a4, a5, a6, a7, a8, a9, a10⟩ := i
  exact ⟨a1, a2, a3, a4, a5, a6, a7, a8, a9, a10⟩

/-- A word below the heap may change. -/
theorem Inv.low {s : VM} {h t e last : Nat} {live : List Block} (i : Inv s h t e last live)
    (pc sp : Word) {j : Nat} (w : Word) (hj : 2 * j + 2 ≤ s.hpb.toNat) :
    Inv { s with pc := pc, sp := sp, mem := updW s.mem j w } h t e last live :=
  Inv.client i ⟨rfl, rfl, rfl, rfl, fun k hk _ => updW_other _ _ (by omega)⟩

/-- What NEW does in a stack-like history. -/
theorem new_run {lib : Lib} {other : VM → Byte → Res (Nat × VM)} (hlib : lib.osOps = osOps other)
    {code : List Byte} {maxpc : Word} {s : VM} (hi : Insn code maxpc s .osop 1 0)
    {h t e last : Nat} {live : List Block} (i : Inv s h t e last live) (stk : StackBelow s)
    (size : (opnd s 0).toNat ≤ 0xfff0) :
    (∃ s' e' last', execute lib code maxpc s = .ok (eNOERROR, s') ∧
      (0 < (opnd s 0).toNat ∧ e + footprint (opnd s 0).toNat ≤ t) ∧
      (opnd s' 0).toNat = e + 8 ∧
      Inv s' h t e' last' (⟨e + 8, (opnd s 0).toNat⟩ :: live)) ∨
    (∃ s', execute lib code maxpc s = .ok (eNEWFAILED, s') ∧
      ¬(0 < (opnd s 0).toNat ∧ e + footprint (opnd s 0).toNat ≤ t) ∧
      Inv s' h t e last live) := by
  have hw := i.words
  have hs := i.hs
  obtain ⟨b1, b2⟩ := stk
  have hlt : s.hpb.toNat < 65536 := s.hpb.isLt
  have htop : s.top = s.sp.toNat / 2 := rfl
  have hsp : (s.sp - 2#16 + 2#16) = s.sp := by bv_omega
  have hpop : ({ s with pc := s.pc + 2#16 } : VM).pop =
      .ok (opnd s 0, { s with pc := s.pc + 2#16, sp := s.sp - 2#16 }) :=
    VM.pop_eq _ (by show s.sp.toNat / 2 < s.words; omega)
  have hpush : ∀ (m : Nat → Word) f (w : Word),
      ({ s with pc := s.pc + 2#16, sp := s.sp - 2#16, mem := m, freeChunks := f } : VM).push w =
      .ok { s with pc := s.pc + 2#16, mem := updW m (s.sp.toNat / 2) w, freeChunks := f } := by
    intro m f w
    have ht : ({ s with pc := s.pc + 2#16, sp := s.sp - 2#16, mem := m, freeChunks := f } : VM).top
        = s.sp.toNat / 2 - 1 := VM.sub2_div _ (by omega)
    rw [VM.push_eq _ _ (by rw [ht]; show _ < s.words; omega) (by rw [ht]; omega)]
    simp only [ht, hsp, show s.sp.toNat / 2 - 1 + 1 = s.sp.toNat / 2 by omega]
  have he : osOps other { s with pc := s.pc + 2#16 } 1 =
      new { s with pc := s.pc + 2#16, sp := s.sp - 2#16 } (opnd s 0).toNat := by
    rw [osOps, if_neg (by decide), if_pos rfl, hpop]; rfl
  rw [osop_exec hlib hi, he, new]
  have i2 := Inv.regs i (s.pc + 2#16) (s.sp - 2#16)
  by_cases hz : 0 < (opnd s 0).toNat
  · rw [if_pos hz]
    by_cases hf : e + footprint (opnd s 0).toNat ≤ t
    · left
      obtain ⟨m, f, e', z, a1, a2, a3⟩ := alloc_ok i2 hz size hf
      rw [a1, Res.ok_bind]
      simp only
      rw [hpush, Res.ok_bind, if_pos (by omega)]
      have hb : (BitVec.ofNat 16 (e + 8)).toNat = e + 8 := by
        have := i.fits; have := i.ts; have := i.le; have := i.big
        rw [BitVec.toNat_ofNat]; omega
      refine ⟨_, e', z, rfl, ⟨hz, hf⟩, ?_, ?_⟩
      · show (updW m (s.sp.toNat / 2) _ (s.sp.toNat / 2 - 0)).toNat = _
        rw [Nat.sub_zero, updW_same, hb]
      · exact Inv.low a2 (s.pc + 2#16) s.sp _ (by show _ ≤ s.hpb.toNat; omega)
    · right
      rw [alloc_fail i2 size hf, Res.ok_bind]
      simp only
      rw [hpush s.mem s.freeChunks, Res.ok_bind, if_neg (by omega)]
      exact ⟨_, rfl, fun c => hf c.2, Inv.low i (s.pc + 2#16) s.sp _ (by omega)⟩
  · right
    rw [if_neg hz]
    simp only [Res.pure_eq, Res.ok_bind]
    rw [hpush s.mem s.freeChunks, Res.ok_bind, if_neg (by omega)]
    exact ⟨_, rfl, fun c => hz c.1, Inv.low i (s.pc + 2#16) s.sp _ (by omega)⟩

theorem dispose_exec {lib : Lib} {other : VM → Byte → Res (Nat × VM)}
    (hlib : lib.osOps = osOps other) {code : List Byte} {maxpc : Word} {s : VM}
    (hi : Insn code maxpc s .osop 2 0) (hr : Room s 1) :
    execute lib code maxpc s =
      free { s with pc := s.pc + 2#16, sp := s.sp - 2#16 } (opnd s 0).toNat := by
  have hpop : ({ s with pc := s.pc + 2#16 } : VM).pop =
      .ok (opnd s 0, { s with pc := s.pc + 2#16, sp := s.sp - 2#16 }) :=
    VM.pop_eq _ hr.2
  rw [osop_exec hlib hi, osOps, if_neg (by decide), if_neg (by decide), if_pos rfl, hpop]; rfl

/-- What DISPOSE of the youngest block does. -/
theorem dispose_run {lib : Lib} {other : VM → Byte → Res (Nat × VM)}
    (hlib : lib.osOps = osOps other) {code : List Byte} {maxpc : Word} {s : VM}
    (hi : Insn code maxpc s .osop 2 0) {h t e last : Nat} {b : Block} {live : List Block}
    (i : Inv s h t e last (b :: live)) (stk : StackBelow s) (ha : (opnd s 0).toNat = b.addr) :
    ∃ s' e' last', execute lib code maxpc s = .ok (eNOERROR, s') ∧ b.addr = e' + 8 ∧
      Inv s' h t e' last' live := by
  have hw := i.words
  have hs := i.hs
  obtain ⟨b1, b2⟩ := stk
  rw [dispose_exec hlib hi ⟨by omega, by omega⟩, ha]
  obtain ⟨m, f, e', z, a1, a2, a3, a4⟩ := free_ok (Inv.regs i (s.pc + 2#16) (s.sp - 2#16))
  exact ⟨_, e', z, a1, a3, a2⟩

/-- The invariant holds in every stack-like history. -/
theorem hist_inv {lib : Lib} {other : VM → Byte → Res (Nat × VM)} (hlib : lib.osOps = osOps other)
    {code : List Byte} {maxpc : Word} {live : List Block} {s : VM}
    (h : HeapHist lib code maxpc Youngest 0xfff0 live s) : HeapInv live s := by
  induction h with
  | init ok run =>
    obtain ⟨h, t, i⟩ := init_inv ok run
    exact ⟨h, t, _, _, i⟩
  | other _ step ih =>
    obtain ⟨h, t, e, l, i⟩ := ih
    exact ⟨h, t, e, l, Inv.client i step⟩
  | new _ stk insn size run ih =>
    obtain ⟨h, t, e, l, i⟩ := ih
    rcases new_run hlib insn i stk size with ⟨s', e', l', r, _, a, i'⟩ | ⟨s', r, _⟩
    · rw [run] at r
      simp only [Res.ok.injEq, Prod.mk.injEq, true_and] at r
      subst r
      rw [a]
      exact ⟨h, t, e', l', i'⟩
    · rw [run] at r
      exact absurd (congrArg (fun x => match x with | .ok (c, _) => c | _ => 0) r) (by
        show ¬eNOERROR = eNEWFAILED
        decide)
  | newFails _ stk insn size run ih =>
    obtain ⟨h, t, e, l, i⟩ := ih
    rcases new_run hlib insn i stk size with ⟨s', e', l', r, _, a, i'⟩ | ⟨s', r, _, i'⟩
    · rw [run] at r
      exact absurd (congrArg (fun x => match x with | .ok (c, _) => c | _ => 0) r) (by
        show ¬eNEWFAILED = eNOERROR
        decide)
    · rw [run] at r
      simp only [Res.ok.injEq, Prod.mk.injEq, true_and] at r
      subst r
      exact ⟨h, t, e, l, i'⟩
  | dispose hh stk insn allowed addr run ih =>
    rename_i b live s s' err
    obtain ⟨h, t, e, l, i⟩ := ih
    cases live with
    | nil => simp [Youngest] at allowed
    | cons c rest =>
      simp only [Youngest, List.head?_cons, Option.some.injEq] at allowed
      subst allowed
      obtain ⟨s2, e', l', r, _, i'⟩ := dispose_run hlib insn i stk addr
      rw [run] at r
      simp only [Res.ok.injEq, Prod.mk.injEq] at r
      obtain ⟨_, rfl⟩ := r
      rw [List.erase_cons_head]
      exact ⟨h, t, e', l', i'⟩

/-- **C19** (stack-like use): in every history in which only the youngest block is disposed,
every live block lies inside the heap region and no two live blocks overlap.  For arbitrary
histories this fails, see `C19_violation_overlap`, and for requests above 65520 bytes see
`C19_violation_huge`. -/
theorem C19_blocks_partial (lib : Lib) (other : VM → Byte → Res (Nat × VM))
    (hlib : lib.osOps = osOps other) (code : List Byte) (maxpc : Word) (live : List Block) (s : VM)
    (hist : HeapHist lib code maxpc Youngest 0xfff0 live s) :
    (∀ b ∈ live, b.Inside s) ∧ live.Pairwise Block.Disjoint := by
  obtain ⟨h, t, e, l, i⟩ := hist_inv hlib hist
  refine ⟨fun b hb => ?_, i.used.disjoint⟩
  have := i.used.mem b hb
  have := i.hs; have := i.ts; have := i.le; have := i.big
  unfold Block.Inside
  omega

/-- **C19** (stack-like use): NEW always ends, either with a block or with the failure report,
and DISPOSE of the youngest block always succeeds. -/
theorem C19_progress_partial (lib : Lib) (other : VM → Byte → Res (Nat × VM))
    (hlib : lib.osOps = osOps other) (code : List Byte) (maxpc : Word) (live : List Block) (s : VM)
    (hist : HeapHist lib code maxpc Youngest 0xfff0 live s) (stk : StackBelow s) :
    (Insn code maxpc s .osop 1 0 → (opnd s 0).toNat ≤ 0xfff0 →
      ∃ e s', execute lib code maxpc s = .ok (e, s') ∧ (e = eNOERROR ∨ e = eNEWFAILED)) ∧
    (Insn code maxpc s .osop 2 0 → ∀ b, Youngest b live → (opnd s 0).toNat = b.addr →
      ∃ s', execute lib code maxpc s = .ok (eNOERROR, s')) := by
  obtain ⟨h, t, e, l, i⟩ := hist_inv hlib hist
  refine ⟨fun hi size => ?_, fun hi b hb ha => ?_⟩
  · rcases new_run hlib hi i stk size with ⟨s', e', l', r, _⟩ | ⟨s', r, _⟩
    · exact ⟨_, s', r, Or.inl rfl⟩
    · exact ⟨_, s', r, Or.inr rfl⟩
  · cases live with
    | nil => simp [Youngest] at hb
    | cons c rest =>
      simp only [Youngest, List.head?_cons, Option.some.injEq] at hb
      subst hb
      obtain ⟨s', _, _, r, _⟩ := dispose_run hlib hi i stk ha
      exact ⟨s', r⟩

/-- **C20** (stack-like use): once everything is disposed, NEW succeeds for every size whose
rounded size fits into the whole heap, that is, for every size a fresh heap can satisfy.  In
other histories this fails, see `C20_violation`. -/
theorem C20_reuse_partial (lib : Lib) (other : VM → Byte → Res (Nat × VM))
    (hlib : lib.osOps = osOps other) (code : List Byte) (maxpc : Word) (s : VM)
    (hist : HeapHist lib code maxpc Youngest 0xfff0 [] s) (stk : StackBelow s)
    (hi : Insn code maxpc s .osop 1 0) (h0 : 0 < (opnd s 0).toNat)
    (hsize : footprint (opnd s 0).toNat ≤ capacity s) :
    ∃ s', execute lib code maxpc s = .ok (eNOERROR, s') := by
  obtain ⟨h, t, e, l, i⟩ := hist_inv hlib hist
  have hs := i.hs; have ts := i.ts; have hsm := i.small
  have he : e = h := by cases i.used; rfl
  unfold capacity at hsize
  rw [← hs, ← ts] at hsize
  have hsz : (opnd s 0).toNat ≤ 0xfff0 := by unfold footprint at hsize; omega
  rcases new_run hlib hi i stk hsz with ⟨s', e', l', r, _⟩ | ⟨s', r, c, _⟩
  · exact ⟨s', r⟩
  · refine absurd ⟨h0, ?_⟩ c
    rw [he]
    unfold footprint at hsize ⊢
    omega

/-- **C20** (stack-like use): conversely a request that does not fit into the whole heap is
refused even when nothing is allocated, so `C20_reuse_partial` is as strong as possible. -/
theorem C20_refuse_partial (lib : Lib) (other : VM → Byte → Res (Nat × VM))
    (hlib : lib.osOps = osOps other) (code : List Byte) (maxpc : Word) (s : VM)
    (hist : HeapHist lib code maxpc Youngest 0xfff0 [] s) (stk : StackBelow s)
    (hi : Insn code maxpc s .osop 1 0) (hsz : (opnd s 0).toNat ≤ 0xfff0)
    (hsize : ¬footprint (opnd s 0).toNat ≤ capacity s) :
    ∃ s', execute lib code maxpc s = .ok (eNEWFAILED, s') := by
  obtain ⟨h, t, e, l, i⟩ := hist_inv hlib hist
  have hs := i.hs; have ts := i.ts; have hle := i.le
  have he : e = h := by cases i.used; rfl
  unfold capacity at hsize
  rw [← hs, ← ts] at hsize
  rcases new_run hlib hi i stk hsz with ⟨s', e', l', r, c, _⟩ | ⟨s', r, _⟩
  · rw [he] at c
    unfold footprint at hsize c
    omega
  · exact ⟨s', r⟩

/-- **C21** (outside): DISPOSE of an address outside the heap region, NIL included, is
reported as an error and changes nothing but `pc` and `sp` -- in every state whatsoever.  The
same for the first 8 bytes of the heap (from its first multiple of 16 on), which hold the
bookkeeping of the first block, and for the last 16. -/
theorem C21_outside (lib : Lib) (other : VM → Byte → Res (Nat × VM))
    (hlib : lib.osOps = osOps other) (code : List Byte) (maxpc : Word) (s : VM) (hr : Room s 1)
    (hi : Insn code maxpc s .osop 2 0) (hh : s.hpb.toNat + 15 < 65536)
    (hout : (opnd s 0).toNat < (s.hpb.toNat + 15) / 16 * 16 + 8 ∨
      (s.hpb.toNat + 15) / 16 * 16 + s.hpSize.toNat ≤ (opnd s 0).toNat + 16) :
    execute lib code maxpc s =
      .ok (eHUH, { s with pc := s.pc + 2#16, sp := s.sp - 2#16 }) := by
  rw [dispose_exec hlib hi hr, free, if_pos]
  have : heapStart { s with pc := s.pc + 2#16, sp := s.sp - 2#16 } =
      (s.hpb.toNat + 15) / 16 * 16 := by
    show alignUp s.hpb.toNat % 65536 = _
    unfold alignUp; omega
  rw [this]
  show _ ∨ _ ≥ _ + s.hpSize.toNat
  omega

/-- **C21** (disposed twice, stack-like use): when the youngest block has just been disposed,
a second DISPOSE of the same address is reported and changes nothing but `pc` and `sp`.  After
the memory has been used again the error is not always noticed, see `C21_violation_stale`. -/
theorem C21_twice_partial (lib : Lib) (other : VM → Byte → Res (Nat × VM))
    (hlib : lib.osOps = osOps other) (code : List Byte) (maxpc : Word) (b : Block)
    (live : List Block) (s s1 s2 : VM)
    (hist : HeapHist lib code maxpc Youngest 0xfff0 (b :: live) s) (stk : StackBelow s)
    (hi : Insn code maxpc s .osop 2 0) (ha : (opnd s 0).toNat = b.addr) (e : Nat)
    (run : execute lib code maxpc s = .ok (e, s1))
    (between : Respects live s1 s2) (stk2 : StackBelow s2) (hi2 : Insn code maxpc s2 .osop 2 0)
    (ha2 : (opnd s2 0).toNat = b.addr) :
    execute lib code maxpc s2 =
      .ok (eDOUBLEFREE, { s2 with pc := s2.pc + 2#16, sp := s2.sp - 2#16 }) := by
  obtain ⟨h, t, e, l, i⟩ := hist_inv hlib hist
  obtain ⟨s', e', l', r, hb, i'⟩ := dispose_run hlib hi i stk ha
  rw [run] at r
  simp only [Res.ok.injEq, Prod.mk.injEq] at r
  obtain ⟨_, rfl⟩ := r
  have j := Inv.client i' between
  have hst := j.start
  have hw := j.words
  have hs := j.hs
  have ts := j.ts
  have big := j.big
  have sm := j.small
  have al := j.used.al (by omega)
  have hle := j.used.le
  have hb2 := i.used.mem b (by simp)
  have hle2 := i.le
  obtain ⟨b1, b2⟩ := stk2
  rw [dispose_exec hlib hi2 ⟨by omega, by omega⟩, ha2, hb, free]
  rw [show heapStart { s2 with pc := s2.pc + 2#16, sp := s2.sp - 2#16 } = h from hst]
  have hz : e' + 24 ≤ t := by
    cases i.used with
    | cons below addr zb => omega
  rw [if_neg (by show ¬(_ ∨ _ ≥ _ + s2.hpSize.toNat); omega)]
  simp only [show e' + 8 - 8 = e' by omega]
  rw [getUse_ok (by omega) (by show _ < s2.words; omega), Res.ok_bind, if_neg]
  · rfl
  · show ¬decide ((s2.mem (e' / 2)).toNat / 32768 = 1) = true
    rcases j.tail with ⟨rfl, _⟩ | ⟨_, _, t0, _⟩
    · omega
    · rw [t0]; simp; omega

/-! ### Concrete histories

A small interpreter of heap scripts; `script_sound` turns its runs into histories. -/

/-- Steps of a script: NEW of some size, DISPOSE of an address, a write of a memory word. -/
inductive HeapAct where
  | new (size : Word)
  | dispose (addr : Word)
  | poke (i : Nat) (w : Word)

def heapCode : List Byte := [Op.osop.toByte, 1, Op.osop.toByte, 2]

/-- The state with `w` on the stack and the program counter at `pc`. -/
def operand (s : VM) (pc w : Word) : VM :=
  { s with pc := pc, sp := 20#16, mem := updW s.mem 10 w }

instance (b : Block) (i : Nat) : Decidable (b.Owns i) := by unfold Block.Owns; infer_instance

/-- The condition for a write by the program. -/
def pokeOk (live : List Block) (i : Nat) : Bool := live.any fun b => decide (b.Owns i)

/-- One step of a script; `lifo` restricts DISPOSE to the youngest block. -/
def scriptStep (lifo : Bool) (maxSize : Nat) : List Block × VM → HeapAct → Option (List Block × VM)
  | (live, s), .new w =>
    if s.hpb = 64#16 ∧ w.toNat ≤ maxSize then
      match osOps (fun _ _ => .ub) { operand s 0 w with pc := 2#16 } 1 with
      | .ok (e, s') =>
        if e = eNOERROR then some (⟨(opnd s' 0).toNat, w.toNat⟩ :: live, s')
        else if e = eNEWFAILED then some (live, s') else none
      | _ => none
    else none
  | (live, s), .dispose w =>
    if s.hpb = 64#16 then
      match live.find? (fun b => b.addr = w.toNat) with
      | some b =>
        if lifo && live.head? != some b then none
        else match osOps (fun _ _ => .ub) { operand s 2 w with pc := 4#16 } 2 with
          | .ok (_, s') => some (live.erase b, s')
          | _ => none
      | none => none
    else none
  | (live, s), .poke i w =>
    if pokeOk live i then some (live, { s with mem := updW s.mem i w }) else none

def runScript (lifo : Bool) (maxSize : Nat) :
    List HeapAct → List Block × VM → Option (List Block × VM)
  | [], c => some c
  | a :: r, c => (scriptStep lifo maxSize c a).bind (runScript lifo maxSize r)

/-- A machine with a 512-byte heap at 64. -/
def heapBase0 : VM :=
  { sampleMem (fun _ => 0) with words := 400, hpb := 64#16, hpSize := 512#16 }

theorem heapBase0_ok : HeapOk heapBase0 := ⟨by decide, by decide, by decide, by decide⟩

def heapFresh : VM := match initializeHeap heapBase0 with
  | .ok s => s
  | _ => heapBase0

theorem heapFresh_run : initializeHeap heapBase0 = .ok heapFresh := rfl

/-- The restriction expressed by the flag of scripts. -/
def may (lifo : Bool) : Block → List Block → Prop := if lifo then Youngest else AnyLive

theorem osOps_new (o o' : VM → Byte → Res (Nat × VM)) (s : VM) : osOps o s 1 = osOps o' s 1 := rfl

theorem osOps_dispose (o o' : VM → Byte → Res (Nat × VM)) (s : VM) : osOps o s 2 = osOps o' s 2 :=
  rfl

theorem operand_respects {s : VM} (live : List Block) (pc w : Word) (h : s.hpb = 64#16) :
    Respects live s (operand s pc w) := by
  refine ⟨rfl, rfl, rfl, rfl, fun i hi _ => ?_⟩
  have : s.hpb.toNat = 64 := by rw [h]; rfl
  exact updW_other _ _ (by omega)

theorem operand_below {s : VM} (pc w : Word) (h : s.hpb = 64#16) :
    StackBelow (operand s pc w) := by
  have : s.hpb.toNat = 64 := by rw [h]; rfl
  refine ⟨by show 2 ≤ 20; omega, ?_⟩
  show 20 + 2 ≤ s.hpb.toNat
  omega

theorem operand_opnd (s : VM) (pc w : Word) : opnd (operand s pc w) 0 = w := by
  simp [opnd, operand, updW]

theorem step_sound {lib : Lib} {other : VM → Byte → Res (Nat × VM)}
    (hlib : lib.osOps = osOps other) {lifo : Bool} {n : Nat} {live live' : List Block} {s s' : VM}
    {a : HeapAct} (h : HeapHist lib heapCode 4#16 (may lifo) n live s)
    (hs : scriptStep lifo n (live, s) a = some (live', s')) :
    HeapHist lib heapCode 4#16 (may lifo) n live' s' := by
  cases a with
  | new w =>
    simp only [scriptStep] at hs
    split at hs
    · rename_i hc
      have h1 := h.other (operand_respects live 0 w hc.1)
      have hi : Insn heapCode 4#16 (operand s 0 w) .osop 1 0 :=
        ⟨⟨by show 0 < 4; omega, rfl⟩, fun _ => rfl, fun h => absurd h (by decide)⟩
      have hx := osop_exec hlib hi
      split at hs
      · rename_i e s2 hr
        rw [show ({ operand s 0 w with pc := (operand s 0 w).pc + 2#16 } : VM) =
          { operand s 0 w with pc := 2#16 } from rfl, osOps_new other (fun _ _ => .ub), hr] at hx
        split at hs
        · rename_i he
          subst he
          simp only [Option.some.injEq, Prod.mk.injEq] at hs
          obtain ⟨rfl, rfl⟩ := hs
          have := h1.new (operand_below 0 w hc.1) hi (by rw [operand_opnd]; exact hc.2) hx
          rw [operand_opnd] at this
          exact this
        · split at hs
          · rename_i he
            subst he
            simp only [Option.some.injEq, Prod.mk.injEq] at hs
            obtain ⟨rfl, rfl⟩ := hs
            exact h1.newFails (operand_below 0 w hc.1) hi (by rw [operand_opnd]; exact hc.2) hx
          · cases hs
      · cases hs
    · cases hs
  | dispose w =>
    simp only [scriptStep] at hs
    split at hs
    · rename_i hc
      have h1 := h.other (operand_respects live 2 w hc)
      have hi : Insn heapCode 4#16 (operand s 2 w) .osop 2 0 :=
        ⟨⟨by show 2 < 4; omega, rfl⟩, fun _ => rfl, fun h => absurd h (by decide)⟩
      have hx := osop_exec hlib hi
      split at hs
      · rename_i b hb
        have hmem := List.mem_of_find?_eq_some hb
        have hadd := List.find?_some hb
        simp only [decide_eq_true_eq] at hadd
        split at hs
        · cases hs
        · rename_i hl
          split at hs
          · rename_i e s2 hr
            rw [show ({ operand s 2 w with pc := (operand s 2 w).pc + 2#16 } : VM) =
              { operand s 2 w with pc := 4#16 } from rfl, osOps_dispose other (fun _ _ => .ub),
              hr] at hx
            simp only [Option.some.injEq, Prod.mk.injEq] at hs
            obtain ⟨rfl, rfl⟩ := hs
            refine h1.dispose (operand_below 2 w hc) hi ?_ (by rw [operand_opnd]; exact hadd.symm)
              hx
            cases lifo
            · exact hmem
            · show live.head? = some b
              simpa using hl
          · cases hs
      · cases hs
    · cases hs
  | poke i w =>
    simp only [scriptStep] at hs
    split at hs
    · rename_i hc
      simp only [Option.some.injEq, Prod.mk.injEq] at hs
      obtain ⟨rfl, rfl⟩ := hs
      refine h.other ⟨rfl, rfl, rfl, rfl, fun j _ hj => ?_⟩
      refine updW_other _ _ fun e => ?_
      subst e
      simp only [pokeOk, List.any_eq_true, decide_eq_true_eq] at hc
      obtain ⟨b, hb, ho⟩ := hc
      exact hj b hb ho
    · cases hs

theorem script_sound {lib : Lib} {other : VM → Byte → Res (Nat × VM)}
    (hlib : lib.osOps = osOps other) {lifo : Bool} {n : Nat} (acts : List HeapAct) :
    ∀ {c c' : List Block × VM}, HeapHist lib heapCode 4#16 (may lifo) n c.1 c.2 →
      runScript lifo n acts c = some c' → HeapHist lib heapCode 4#16 (may lifo) n c'.1 c'.2 := by
  induction acts with
  | nil =>
    intro c c' h hr
    simp only [runScript, Option.some.injEq] at hr
    subst hr
    exact h
  | cons a r ih =>
    intro c c' h hr
    simp only [runScript] at hr
    cases hs : scriptStep lifo n c a with
    | none => rw [hs] at hr; cases hr
    | some d =>
      rw [hs] at hr
      exact ih (step_sound (live := c.1) (s := c.2) hlib h hs) hr

/-- Result of a script on the fresh heap. -/
def scriptEnd (lifo : Bool) (n : Nat) (acts : List HeapAct) : List Block × VM :=
  (runScript lifo n acts ([], heapFresh)).getD ([], heapFresh)

theorem scriptEnd_hist {lib : Lib} {other : VM → Byte → Res (Nat × VM)}
    (hlib : lib.osOps = osOps other) (lifo : Bool) (n : Nat) (acts : List HeapAct)
    (hok : (runScript lifo n acts ([], heapFresh)).isSome) :
    HeapHist lib heapCode 4#16 (may lifo) n (scriptEnd lifo n acts).1
      (scriptEnd lifo n acts).2 := by
  refine script_sound hlib acts (c := ([], heapFresh)) (.init heapBase0_ok heapFresh_run) ?_
  unfold scriptEnd
  generalize runScript lifo n acts ([], heapFresh) = r at hok ⊢
  cases r with
  | none => cases hok
  | some c => rfl

/-- Stack-like history with three live blocks, the second allocation having been repeated. -/
def stackScript : List HeapAct :=
  [.new 16, .new 100, .poke 50 0xffff, .dispose 96, .new 30, .new 7]

/-- Non-vacuity of C19 and C20: the script is a history with these live blocks. -/
example (lib : Lib) (other : VM → Byte → Res (Nat × VM)) (hlib : lib.osOps = osOps other) :
    ∃ s, HeapHist lib heapCode 4#16 Youngest 0xfff0 [⟨136, 7⟩, ⟨96, 30⟩, ⟨72, 16⟩] s := by
  have h := scriptEnd_hist hlib true 0xfff0 stackScript (by decide +kernel)
  rw [show (scriptEnd true 0xfff0 stackScript).1 = [⟨136, 7⟩, ⟨96, 30⟩, ⟨72, 16⟩] by
    decide +kernel] at h
  exact ⟨_, h⟩

/-- **C19 is violated** when blocks are disposed in another order: NEW hands out a block that
overlaps a live one.  A chunk that is split does not pass its new size on to its neighbour,
which later merges with the wrong chunk. -/
theorem C19_violation_overlap (lib : Lib) (other : VM → Byte → Res (Nat × VM))
    (hlib : lib.osOps = osOps other) :
    ∃ code maxpc live s, HeapHist lib code maxpc AnyLive 0xfff0 live s ∧
      ¬live.Pairwise Block.Disjoint := by
  have h := scriptEnd_hist hlib false 0xfff0
    [.new 16, .new 64, .new 16, .new 16, .dispose 96, .new 16, .new 16, .dispose 96, .dispose 168,
      .new 32] (by decide +kernel)
  refine ⟨_, _, _, _, h, ?_⟩
  rw [show (scriptEnd false 0xfff0 [.new 16, .new 64, .new 16, .new 16, .dispose 96, .new 16,
    .new 16, .dispose 96, .dispose 168, .new 32]).1 =
      [⟨96, 32⟩, ⟨120, 16⟩, ⟨192, 16⟩, ⟨72, 16⟩] by decide +kernel]
  intro hp
  have := (List.pairwise_cons.1 hp).1 ⟨120, 16⟩ (by simp)
  revert this
  simp [Block.Disjoint]

/-- **C19 is violated** by requests of more than 65520 bytes: the size computation overflows
and a block of zero usable bytes is handed out; the next block overlaps it. -/
theorem C19_violation_huge (lib : Lib) (other : VM → Byte → Res (Nat × VM))
    (hlib : lib.osOps = osOps other) :
    ∃ code maxpc live s, HeapHist lib code maxpc Youngest 65535 live s ∧
      (∃ b ∈ live, ¬b.Inside s) ∧ ¬live.Pairwise Block.Disjoint := by
  have h := scriptEnd_hist hlib true 65535 [.new 65535, .new 16] (by decide +kernel)
  refine ⟨_, _, _, _, h, ?_⟩
  have e : (scriptEnd true 65535 [.new 65535, .new 16]).1 = [⟨80, 16⟩, ⟨72, 65535⟩] := by
    decide +kernel
  rw [e]
  refine ⟨⟨⟨72, 65535⟩, by simp, ?_⟩, fun hp => ?_⟩
  · intro hin
    have h2 := hin.2
    rw [show (scriptEnd true 65535 [.new 65535, .new 16]).2.hpb = 64#16 by decide +kernel,
      show (scriptEnd true 65535 [.new 65535, .new 16]).2.hpSize = 512#16 by decide +kernel] at h2
    exact absurd h2 (by decide)
  · have := (List.pairwise_cons.1 hp).1 ⟨72, 65535⟩ (by simp)
    revert this
    simp [Block.Disjoint]

/-- **C20 is violated** when the two blocks are disposed in the order of their allocation: with
nothing allocated, a request for 464 bytes fails although the fresh heap can satisfy it. -/
theorem C20_violation (lib : Lib) (other : VM → Byte → Res (Nat × VM))
    (hlib : lib.osOps = osOps other) :
    ∃ code maxpc s s', HeapHist lib code maxpc AnyLive 0xfff0 [] s ∧ StackBelow s ∧
      Insn code maxpc s .osop 1 0 ∧ 0 < (opnd s 0).toNat ∧
      footprint (opnd s 0).toNat ≤ capacity s ∧
      execute lib code maxpc s = .ok (eNEWFAILED, s') := by
  let acts : List HeapAct := [.new 16, .new 16, .dispose 72, .dispose 96]
  have h := scriptEnd_hist hlib false 0xfff0 acts (by decide +kernel)
  rw [show (scriptEnd false 0xfff0 acts).1 = [] by decide +kernel] at h
  have hb : (scriptEnd false 0xfff0 acts).2.hpb = 64#16 := by decide +kernel
  have hz : (scriptEnd false 0xfff0 acts).2.hpSize = 512#16 := by decide +kernel
  have h1 := h.other (operand_respects [] 0 464 hb)
  have hi : Insn heapCode 4#16 (operand (scriptEnd false 0xfff0 acts).2 0 464) .osop 1 0 :=
    ⟨⟨by show 0 < 4; omega, rfl⟩, fun _ => rfl, fun h => absurd h (by decide)⟩
  have hx := osop_exec hlib hi
  rw [osOps_new other (fun _ _ => .ub)] at hx
  have hr : ∃ s', osOps (fun _ _ => .ub) { operand (scriptEnd false 0xfff0 acts).2 0 464 with
      pc := (operand (scriptEnd false 0xfff0 acts).2 0 464).pc + 2#16 } 1 =
      .ok (eNEWFAILED, s') := by
    have : (match osOps (fun _ _ => .ub) { operand (scriptEnd false 0xfff0 acts).2 0 464 with
      pc := (operand (scriptEnd false 0xfff0 acts).2 0 464).pc + 2#16 } 1 with
      | .ok (e, _) => e == eNEWFAILED | _ => false) = true := by decide +kernel
    revert this
    split
    · rename_i e s' hh
      intro he
      rw [hh]
      simp only [beq_iff_eq] at he
      exact ⟨s', by rw [he]⟩
    · intro he; cases he
  obtain ⟨s', hr⟩ := hr
  refine ⟨_, _, _, s', h1, operand_below 0 464 hb, hi, ?_, ?_, hx.trans hr⟩
  · rw [operand_opnd]; decide
  · rw [operand_opnd]
    unfold capacity
    rw [show (operand (scriptEnd false 0xfff0 acts).2 0 464).hpb = 64#16 from hb,
      show (operand (scriptEnd false 0xfff0 acts).2 0 464).hpSize = 512#16 from hz]
    decide

/-- **C21 is violated** when the memory of the disposed block is in use again: block 96 is
disposed, its memory becomes part of another block in which the program stores a number, and a
second DISPOSE of 96 succeeds. -/
theorem C21_violation_stale (lib : Lib) (other : VM → Byte → Res (Nat × VM))
    (hlib : lib.osOps = osOps other) :
    ∃ code maxpc s s' b, HeapHist lib code maxpc Youngest 0xfff0 [b] s ∧ b.addr = 72 ∧
      StackBelow s ∧ Insn code maxpc s .osop 2 0 ∧ (opnd s 0).toNat = 96 ∧
      execute lib code maxpc s = .ok (eNOERROR, s') := by
  let acts : List HeapAct :=
    [.new 16, .new 16, .dispose 96, .dispose 72, .new 200, .poke 44 0x8018]
  have h := scriptEnd_hist hlib true 0xfff0 acts (by decide +kernel)
  rw [show (scriptEnd true 0xfff0 acts).1 = [⟨72, 200⟩] by decide +kernel] at h
  have hb : (scriptEnd true 0xfff0 acts).2.hpb = 64#16 := by decide +kernel
  have h1 := h.other (operand_respects _ 2 96 hb)
  have hi : Insn heapCode 4#16 (operand (scriptEnd true 0xfff0 acts).2 2 96) .osop 2 0 :=
    ⟨⟨by show 2 < 4; omega, rfl⟩, fun _ => rfl, fun h => absurd h (by decide)⟩
  have hx := osop_exec hlib hi
  rw [osOps_dispose other (fun _ _ => .ub)] at hx
  have hr : ∃ s', osOps (fun _ _ => .ub) { operand (scriptEnd true 0xfff0 acts).2 2 96 with
      pc := (operand (scriptEnd true 0xfff0 acts).2 2 96).pc + 2#16 } 2 =
      .ok (eNOERROR, s') := by
    have : (match osOps (fun _ _ => .ub) { operand (scriptEnd true 0xfff0 acts).2 2 96 with
      pc := (operand (scriptEnd true 0xfff0 acts).2 2 96).pc + 2#16 } 2 with
      | .ok (e, _) => e == eNOERROR | _ => false) = true := by decide +kernel
    revert this
    split
    · rename_i e s' hh
      intro he
      rw [hh]
      simp only [beq_iff_eq] at he
      exact ⟨s', by rw [he]⟩
    · intro he; cases he
  obtain ⟨s', hr⟩ := hr
  exact ⟨_, _, _, s', ⟨72, 200⟩, h1, rfl, operand_below 2 96 hb, hi, by rw [operand_opnd]; rfl,
    hx.trans hr⟩

end Pas
