import Verif.Lemmas.CompStmt
import Verif.Lemmas.Strings

/-! What the code of statements does. -/
namespace Pas.Src
open Pas.Spec Pas.Comp
open Pas.Str (word_of_bytes byte_updW)

theorem labI_eq (l : Nat) : labI l = labelMark (BitVec.ofNat 16 l) := by
  simp [labI, ins, labelMark, hasArg8, hasArg16, Op.toByte]
  try decide

theorem label_at {p : List OpType} (hu : Uniq p) {k l : Nat} (h : p[k]? = some (labI l)) :
    LabelAt p (BitVec.ofNat 16 l) k := by
  rw [labI_eq] at h
  refine ⟨h, fun j hj h' => ?_⟩
  have := hu _ _ _ h h'
  omega

theorem label_unique {p : List OpType} (hu : Uniq p) {k k' : Nat} {L : Word} (h : LabelAt p L k)
    (h' : LabelAt p L k') : k = k' := hu _ _ _ h.1 h'.1

/-! ### Stores -/

theorem Env.Ok.holds_set' {Γ : Env} (hΓ : Γ.Ok) {m m0 : Nat → Word} {σ : Store} {x : Variable}
    (hx : Γ.vars x) {w : Val} (h : Γ.Holds m0 σ)
    (kept : ∀ a, ¬ Γ.Owns x a → byte m a = byte m0 a) (hf : Fits x.ty w)
    (h2 : x.ty.size = 2 → m (Γ.addr x / 2) = w.word)
    (h1 : x.ty.size = 1 → byte m (Γ.addr x) = w.word.truncate 8) : Γ.Holds m (σ.set x w) := by
  intro y u hy hu
  unfold Store.set at hu
  by_cases e : y = x
  · subst e
    rw [if_pos rfl] at hu
    cases hu
    exact ⟨hf, h2, h1⟩
  · rw [if_neg e] at hu
    obtain ⟨g1, g2, g3⟩ := h y u hy hu
    have hd : ∀ a, Γ.Owns y a → byte m a = byte m0 a := by
      intro a ha
      exact kept a (fun ha' => e (hΓ.disjoint y x a hy hx ha ha'))
    refine ⟨g1, ?_, ?_⟩
    · intro hs
      rw [← g2 hs]
      have ha := hΓ.aligned y hy hs
      apply word_of_bytes
      · exact hd _ ⟨by omega, by omega⟩
      · exact hd _ ⟨by omega, by omega⟩
    · intro hs
      rw [← g3 hs]
      exact hd _ ⟨by omega, by omega⟩

theorem trim_fits {v : Val} {ty : Ty} (hr : v.Ranged) (ht : v.ty = ty) : Fits ty v.trim ∧
    (ty.size = 2 → v.trim.word = v.word) ∧
    (ty.size = 1 → (v.trim.word.truncate 8 : Byte) = v.word.truncate 8) := by
  cases v with
  | num t i =>
    cases ht
    have hr : wrap t i = i := hr
    cases t with
    | integer =>
      have hr : Int.bmod i 65536 = i := hr
      have h1 := Int.le_bmod (x := i) (m := 65536) (by decide)
      have h2 := Int.bmod_lt (x := i) (m := 65536) (by decide)
      exact ⟨⟨rfl, by simp only; omega⟩, fun _ => rfl, fun h => by cases h⟩
    | word =>
      have hr : i % 65536 = i := hr
      exact ⟨⟨rfl, by simp only; omega⟩, fun _ => rfl, fun h => by cases h⟩
    | shortInteger =>
      have h1 := Int.le_bmod (x := i) (m := 256) (by decide)
      have h2 := Int.bmod_lt (x := i) (m := 256) (by decide)
      refine ⟨⟨rfl, by simp only; omega⟩, (fun h => by cases h), fun _ => ?_⟩
      have h3 : Int.bmod i 256 % 256 = i % 256 := Int.bmod_emod
      apply BitVec.eq_of_toNat_eq
      show ((BitVec.ofInt 16 (Int.bmod i 256)).truncate 8).toNat = _
      generalize Int.bmod i 256 = z at h1 h2 h3
      simp only [Val.word, BitVec.truncate, BitVec.toNat_setWidth, BitVec.toNat_ofInt]
      omega
    | shortWord =>
      refine ⟨⟨rfl, by simp only; omega⟩, (fun h => by cases h), fun _ => ?_⟩
      apply BitVec.eq_of_toNat_eq
      have h3 : i % 256 % 256 = i % 256 := by omega
      show ((BitVec.ofInt 16 (i % 256)).truncate 8).toNat = ((BitVec.ofInt 16 i).truncate 8).toNat
      simp only [BitVec.truncate, BitVec.toNat_setWidth, BitVec.toNat_ofInt]
      omega
  | bool c => cases ht; exact ⟨trivial, fun _ => rfl, fun h => by cases h⟩
  | char c => cases ht; exact ⟨trivial, (fun h => by cases h), fun _ => rfl⟩

/-- What the store of a variable writes. -/
theorem store_value {Γ : Env} (hΓ : Γ.Ok) {s : VM} {b : Nat} {σ : Store} (hi : Γ.In s b)
    (hh : Γ.Holds s.mem σ) {x : Variable} (hx : Γ.vars x) {v : Val} (hr : v.Ranged) (hty : v.ty = x.ty) :
    ∃ m, (x.level = 0 →
        storeM s ((level0 (stO x.ty)).getD .nop) 0 (BitVec.ofInt 16 x.off) s.mem v.word = .ok m) ∧
      (x.level ≠ 0 → storeM s (stO x.ty) (BitVec.ofInt 8 ((Γ.level : Int) - x.level))
        (BitVec.ofInt 16 x.off) s.mem v.word = .ok m) ∧
      Γ.Holds m (σ.set x v.trim) ∧ ∀ a, ¬ Γ.Owns x a → byte m a = byte s.mem a := by
  obtain ⟨hr0, hr1⟩ := ref_addr hΓ hi hx
  obtain ⟨f1, f2, f3⟩ := trim_fits hr hty
  have hin := hi.inside x hx
  have hb := hi.bound
  rcases byteSize_cases x.ty with hs | hs
  · have kept : ∀ a, ¬ Γ.Owns x a → byte (updB s.mem (Γ.addr x) (v.word.truncate 8)) a = byte s.mem a := by
      intro a ha
      rw [byte_updB, if_neg]
      rintro rfl
      exact ha ⟨by omega, by omega⟩
    have ho : stO x.ty = .stsb := by
      generalize x.ty = ty at hs
      cases ty with
      | num t => cases t <;> first | rfl | cases hs
      | _ => first | rfl | cases hs
    rw [ho]
    refine ⟨updB s.mem (Γ.addr x) (v.word.truncate 8), ?_, ?_, ?_, kept⟩
    · intro h0
      show storeM s .stb _ _ _ _ = _
      simp only [storeM]
      rw [hr0 h0, if_pos (by omega)]
    · intro h0
      obtain ⟨a, ha, hb⟩ := hr1 h0
      simp only [storeM]
      rw [hb, Res.ok_bind, ha, if_pos (by omega)]
    · refine hΓ.holds_set' hx hh kept f1 (fun h => by omega) ?_
      intro _
      rw [byte_updB, if_pos rfl, f3 hs]
  · have hal := hΓ.aligned x hx hs
    have kept : ∀ a, ¬ Γ.Owns x a → byte (updW s.mem (Γ.addr x / 2) v.word) a = byte s.mem a := by
      intro a ha
      apply byte_updW
      intro h
      exact ha ⟨by omega, by omega⟩
    have ho : stO x.ty = .sts := by
      generalize x.ty = ty at hs
      cases ty with
      | num t => cases t <;> first | rfl | cases hs
      | _ => first | rfl | cases hs
    rw [ho]
    refine ⟨updW s.mem (Γ.addr x / 2) v.word, ?_, ?_, ?_, kept⟩
    · intro h0
      show storeM s .st _ _ _ _ = _
      simp only [storeM]
      rw [hr0 h0, if_pos (by omega)]
    · intro h0
      obtain ⟨a, ha, hb⟩ := hr1 h0
      simp only [storeM]
      rw [hb, Res.ok_bind, ha, if_pos (by omega)]
    · refine hΓ.holds_set' hx hh kept f1 ?_ (fun h => by omega)
      intro _
      rw [updW_same, f2 hs]

/-- Storing the top word into a variable. -/
theorem store_runs {lib : Lib} {Γ : Env} (hΓ : Γ.Ok) {s : VM} {b : Nat} {σ : Store} (hi : Γ.In s b)
    (hh : Γ.Holds s.mem σ) (ht : s.top < s.words) {x : Variable} (hx : Γ.vars x) {v : Val}
    (hr : v.Ranged) (hty : v.ty = x.ty) (hv : s.mem s.top = v.word) :
    ∃ m, Runs lib [ref Γ.level (stO x.ty) x] s { s with
        sp := s.sp - 2#16
        mem := m } ∧ Γ.Holds m (σ.set x v.trim) ∧
      ∀ a, ¬ Γ.Owns x a → byte m a = byte s.mem a := by
  obtain ⟨m, hk0, hk1, g1, g2⟩ := store_value hΓ hi hh hx hr hty
  refine ⟨m, ?_, g1, g2⟩
  have key : ∀ (o o' : Op), stO x.ty = o → level0 o = some o' → isStoreOp o = true →
      isStoreOp o' = true →
      hasArg8 o.toByte = true → hasArg16 o.toByte = true →
      hasArg8 o'.toByte = false → hasArg16 o'.toByte = true →
      Runs lib [ref Γ.level (stO x.ty) x] s { s with
        sp := s.sp - 2#16
        mem := m } := by
    intro o o' ho hl hlo hlo' a1 a2 a3 a4
    rw [ho] at hk0 hk1 ⊢
    rw [hl] at hk0
    unfold ref
    by_cases h0 : x.level = 0
    · rw [if_pos h0, hl]
      refine .one (o := o') rfl (isStoreOp_plain hlo') ?_
      rw [store_effect (o := o') rfl hlo' ht, hv]
      simp only [ins, Option.getD, a3, a4, if_true, Bool.false_eq_true, if_false]
      have := hk0 h0
      simp only [Option.getD] at this
      rw [this]
      rfl
    · rw [if_neg h0]
      refine .one (o := o) rfl (isStoreOp_plain hlo) ?_
      rw [store_effect (o := o) rfl hlo ht, hv]
      simp only [ins, a1, a2, if_true]
      rw [hk1 h0]
      rfl
  clear hk0 hk1 hty hx g1 g2
  generalize x.ty = ty at key ⊢
  cases ty with
  | num t => cases t <;> exact key _ _ rfl rfl rfl rfl rfl rfl rfl rfl
  | _ => exact key _ _ rfl rfl rfl rfl rfl rfl rfl rfl

/-! ### Stores into elements -/

/-- The store without an index. -/
def plainStore : Op → Option Op
  | .stx => some .st
  | .stxb => some .stb
  | .stsx => some .sts
  | .stsxb => some .stsb
  | _ => none

theorem getBase_shift {s : VM} {lev : Byte} {w i : Word}
    (h : 0 ≤ signExtend16 w ↔ 0 ≤ signExtend16 (w + i)) :
    getBaseAddress s lev (signExtend16 (w + i)) =
      (do let a ← getBaseAddress s lev (signExtend16 w); .ok (i + a)) := by
  unfold getBaseAddress
  cases chase s lev.toNat s.fp with
  | ub => rfl
  | hang => rfl
  | ok f =>
    simp only [Res.ok_bind]
    have e : ∀ z : Word, BitVec.ofInt 16 (signExtend16 z) = z := fun z => BitVec.ofInt_toInt
    rw [e, e]
    congr 1
    by_cases h0 : 0 ≤ signExtend16 w
    · rw [if_pos (show signExtend16 w ≥ 0 from h0), if_pos (show signExtend16 (w + i) ≥ 0 from h.mp h0)]
      bv_omega
    · rw [if_neg (show ¬ signExtend16 w ≥ 0 from h0),
        if_neg (show ¬ signExtend16 (w + i) ≥ 0 from fun h' => h0 (h.mpr h'))]
      bv_omega

theorem storex_effect {lib : Lib} {i : OpType} {o o' : Op} {s : VM} (ho : i.op = o.toByte)
    (hl : plainStore o = some o') (h1 : 1 ≤ s.top) (ht : s.top < s.words)
    (hs : o' = .sts ∨ o' = .stsb → (0 ≤ signExtend16 i.arg2 ↔ 0 ≤ signExtend16 (i.arg2 + s.mem (s.top - 1)))) :
    effect lib i s = (do
      let m ← storeM s o' i.arg1 (i.arg2 + s.mem (s.top - 1)) s.mem (s.mem s.top)
      .ok { s with
        sp := s.sp - 4#16
        mem := m }) := by
  have e4 : s.sp - 2#16 - 2#16 = s.sp - 4#16 := by bv_omega
  have hsp : (s.sp - 2#16).toNat / 2 = s.top - 1 := by
    have h2 : 1 ≤ s.sp.toNat / 2 := h1
    show _ = s.sp.toNat / 2 - 1
    rw [BitVec.toNat_sub]
    have := s.sp.isLt
    simp only [BitVec.toNat_ofNat]
    omega
  have pe : ∀ pc, ({ s with pc := pc } : VM).pop =
      .ok (s.mem s.top, { s with
        sp := s.sp - 2#16
        pc := pc }) :=
    fun pc => VM.pop_eq _ (by exact ht)
  have pe2 : ∀ pc, ({ s with
        sp := s.sp - 2#16
        pc := pc } : VM).pop =
      .ok (s.mem (s.top - 1), { s with
        sp := s.sp - 4#16
        pc := pc }) := by
    intro pc
    rw [VM.pop_eq _ (by show (s.sp - 2#16).toNat / 2 < s.words; omega)]
    have : VM.top { s with
        sp := s.sp - 2#16
        pc := pc } = s.top - 1 := hsp
    rw [this]
    simp only [e4]
  have gb : ∀ pc x off, getBaseAddress { s with
        sp := s.sp - 4#16
        pc := pc } x off = getBaseAddress s x off := by
    intro pc x off
    have hc : ∀ n f, chase { s with
        sp := s.sp - 4#16
        pc := pc } n f = chase s n f := by
      intro n
      induction n with
      | zero => intro f; rfl
      | succ n ih => intro f; simp only [chase, ih]; rfl
    simp only [getBaseAddress, hc]
  have ac : ∀ w i : Word, i + (s.spb + w) = s.spb + (w + i) := by intro w i; bv_omega
  cases o <;> first | (cases hl; done) | skip
  all_goals cases hl
  case stx =>
    rw [effect_24 ho rfl rfl, pexec24, pe]
    simp only [storeM, Res.ok_bind, pe2, VM.putStack, VM.wr, ac]
    split <;> rfl
  case stxb =>
    rw [effect_24 ho rfl rfl, pexec24, pe]
    simp only [storeM, Res.ok_bind, pe2, VM.wrB, ac]
    split <;> rfl
  case stsx =>
    rw [effect_32 ho rfl rfl, pexec32, pe]
    simp only [storeM, Res.ok_bind, pe2, gb, getBase_shift (hs (by simp))]
    cases getBaseAddress s i.arg1 (signExtend16 i.arg2) with
    | ub => rfl
    | hang => rfl
    | ok a =>
      simp only [Res.ok_bind, VM.putStack, VM.wr]
      split <;> rfl
  case stsxb =>
    rw [effect_32 ho rfl rfl, pexec32, pe]
    simp only [storeM, Res.ok_bind, pe2, gb, getBase_shift (hs (by simp))]
    cases getBaseAddress s i.arg1 (signExtend16 i.arg2) with
    | ub => rfl
    | hang => rfl
    | ok a =>
      simp only [Res.ok_bind, VM.wrB]
      split <;> rfl

/-- Storing the top word into the element whose offset is below it. -/
theorem storex_runs {lib : Lib} {Γ : Env} (hΓ : Γ.Ok) {s : VM} {b : Nat} {σ : Store} (hi : Γ.In s b)
    (hh : Γ.Holds s.mem σ) (h1 : 1 ≤ s.top) (ht : s.top < s.words) {a : Arr} {k : Nat} (hk : a.lo ≤ k)
    (hx : Γ.vars (a.elem k)) {v : Val}
    (hr : v.Ranged) (hty : v.ty = a.ty) (hv : s.mem s.top = v.word)
    (hoff : s.mem (s.top - 1) = BitVec.ofInt 16 (a.rel k)) :
    ∃ m, Runs lib [ref Γ.level (stxO a.ty) a.base] s { s with
        sp := s.sp - 4#16
        mem := m } ∧ Γ.Holds m (σ.set (a.elem k) v.trim) ∧
      ∀ c, ¬ Γ.Owns (a.elem k) c → byte m c = byte s.mem c := by
  obtain ⟨m, hk0, hk1, g1, g2⟩ := store_value hΓ hi hh hx hr hty
  refine ⟨m, ?_, g1, g2⟩
  have hnn := Arr.rel_nonneg hk
  have key : ∀ (o o' p p' : Op), stxO a.ty = o → stO a.ty = p → level0 o = some o' →
      level0 p = some p' → plainStore o = some p → plainStore o' = some p' →
      isPlain o = true → isPlain o' = true → (p' = .st ∨ p' = .stb) →
      hasArg8 o.toByte = true → hasArg16 o.toByte = true →
      hasArg8 o'.toByte = false → hasArg16 o'.toByte = true →
      Runs lib [ref Γ.level (stxO a.ty) a.base] s { s with
        sp := s.sp - 4#16
        mem := m } := by
    intro o o' p p' ho hp hl hl' hu hu' q q' hn a1 a2 a3 a4
    rw [show stO (a.elem k).ty = p from hp] at hk0 hk1
    rw [hl'] at hk0
    rw [ho]
    unfold ref
    by_cases h0 : a.level = 0
    · rw [if_pos (show a.base.level = 0 from h0), hl]
      refine .one (o := o') rfl q' ?_
      show effect lib (ins o' 0 a.base.off) s = _
      rw [storex_effect (lib := lib) (i := ins o' 0 a.base.off) (o := o') (s := s) rfl hu' h1 ht
        (fun h => by rcases hn with rfl | rfl <;> rcases h with h | h <;> cases h), hoff, hv]
      simp only [ins, a3, a4, if_true, Bool.false_eq_true, if_false]
      rw [show a.base.off = a.off from rfl, element_add]
      have := hk0 h0
      simp only [Option.getD] at this
      rw [this]
      rfl
    · rw [if_neg (show ¬ a.base.level = 0 from h0)]
      refine .one (o := o) rfl q ?_
      have hof := hΓ.offset _ hx h0
      rw [Arr.elem_off] at hof
      rw [storex_effect (lib := lib) (i := ins o ((Γ.level : Int) - a.base.level) a.base.off) (o := o)
        (s := s) rfl hu h1 ht (fun _ => ?_), hoff, hv]
      · simp only [ins, a1, a2, if_true]
        rw [show a.base.off = a.off from rfl, element_add]
        have := hk1 h0
        rw [show ((Γ.level : Int) - a.base.level) = (Γ.level : Int) - (a.elem k).level from rfl, this]
        rfl
      · simp only [ins, a2, if_true]
        rw [hoff, show a.base.off = (a.off : Int) from rfl, element_add, Arr.elem_off]
        simp only [signExtend16, BitVec.toInt_ofInt]
        rw [Int.bmod_eq_of_le (by omega) (by omega), Int.bmod_eq_of_le (by omega) (by omega)]
        omega
  clear hk0 hk1 hty hx g1 g2
  generalize a.ty = ty at key
  cases ty with
  | num t =>
    cases t <;> exact key _ _ _ _ rfl rfl rfl rfl rfl rfl rfl rfl (by simp) rfl rfl rfl rfl
  | _ => exact key _ _ _ _ rfl rfl rfl rfl rfl rfl rfl rfl (by simp) rfl rfl rfl rfl

/-! ### Keeping everything but the variables -/

theorem Env.Keeps.refl (Γ : Env) (w : Bool) (s : VM) : Γ.Keeps w s s :=
  ⟨rfl, fun _ => rfl, fun _ _ => rfl, fun _ _ _ => rfl, fun _ _ _ => rfl⟩

theorem Env.Keeps.trans {Γ : Env} {w : Bool} {s t u : VM} (h : Γ.Keeps w s t) (h' : Γ.Keeps w t u)
    (ht : s.top ≤ t.top) : Γ.Keeps w s u := by
  refine ⟨?_, fun hw => ?_, fun f hf => ?_, fun i h0 hi => ?_, fun a ha hn => ?_⟩
  · have := congrArg (fun z : VM => ({ z with
      sp := u.sp
      mem := u.mem
      io := u.io } : VM)) h.regs
    exact h'.regs.trans this
  · rw [h'.quiet hw, h.quiet hw]
  · rw [h'.files f hf, h.files f hf]
  · rw [h'.numbers i h0 hi, h.numbers i h0 hi]
  · rw [h'.kept a (Nat.le_trans ha ht) hn, h.kept a ha hn]

/-- If nothing is written, nothing is written. -/
theorem Env.Keeps.quiet' {Γ : Env} {s t : VM} (h : Γ.Keeps false s t) (w : Bool) : Γ.Keeps w s t :=
  ⟨h.regs, fun _ => h.quiet rfl, h.files, h.numbers, h.kept⟩

/-- Only the stack pointer and memory differ. -/
theorem keeps_of_regs {Γ : Env} {s t : VM} {x : Word} (h : t = { s with
      sp := x
      mem := t.mem })
    (hk : ∀ a, a / 2 ≤ s.sp.toNat / 2 → (∀ y, Γ.vars y → ¬ Γ.Owns y a) →
      byte t.mem a = byte s.mem a) (w : Bool) : Γ.Keeps w s t := by
  have hsp : t.sp = x := congrArg VM.sp h
  have hio : t.io = s.io := by have := congrArg VM.io h; exact this
  refine ⟨h.trans ?_, fun _ => hio, fun f _ => by rw [hio], fun i _ _ => by rw [hio], hk⟩
  rw [hsp, hio]

theorem Env.Keeps.setSp {Γ : Env} {w : Bool} {s t : VM} (h : Γ.Keeps w s t) (x : Word) :
    Γ.Keeps w s { t with sp := x } := by
  refine ⟨?_, h.quiet, h.files, h.numbers, h.kept⟩
  have := congrArg (fun z : VM => ({ z with
      sp := x
      mem := t.mem
      io := t.io } : VM)) h.regs
  exact this

theorem Env.Keeps.words {Γ : Env} {w : Bool} {s t : VM} (h : Γ.Keeps w s t) : t.words = s.words := by
  rw [h.regs]

theorem Env.Keeps.word {Γ : Env} {w : Bool} {s t : VM} (h : Γ.Keeps w s t) {j : Nat} (hj : j ≤ s.top)
    (hn : ∀ y a, Γ.vars y → Γ.Owns y a → a / 2 ≠ j) : t.mem j = s.mem j := by
  apply word_of_bytes
  · exact h.kept _ (by show _ ≤ s.top; omega) (fun y hy ho => hn y _ hy ho (by omega))
  · exact h.kept _ (by show _ ≤ s.top; omega) (fun y hy ho => hn y _ hy ho (by omega))

/-- Words above the variables. -/
theorem Env.Keeps.above {Γ : Env} {w : Bool} {s t : VM} (h : Γ.Keeps w s t) {b : Nat} (hi : Γ.In s b)
    (hΓ : Γ.Ok) {j : Nat} (hj : j ≤ s.top) (hb : b < j) : t.mem j = s.mem j := by
  refine h.word hj (fun y a hy ho => ?_)
  have := hi.inside y hy
  have hs := byteSize_cases y.ty
  have hal := hΓ.aligned y hy
  unfold Env.Owns at ho
  omega

theorem Env.Keeps.in_ {Γ : Env} {w : Bool} {s t : VM} (h : Γ.Keeps w s t) {b : Nat} (hi : Γ.In s b)
    (hb : b ≤ s.top) : Γ.In t b := by
  refine hi.congr h.words (by rw [h.regs]) (by rw [h.regs]) (by rw [h.regs]) ?_
  intro j hj hn
  exact h.word (Nat.le_trans hj hb) hn

/-- The part of `Output` that does not depend on the files. -/
theorem Env.Keeps.output_of {Γ : Env} {lib : Lib} {ro : List Byte} {w : Bool} {s t : VM} {b : Nat}
    {text text' : List Byte} (h : Γ.Keeps w s t) (ho : Γ.Output lib ro s b text) (hb : b ≤ s.top)
    (h1 : OpenOut t 1#16 .stdout text'.length) (h2 : fileText t .stdout = text') :
    Γ.Output lib ro t b text' := by
  have hspb : t.spb = s.spb := by rw [h.regs]
  have hrop : t.rop = s.rop := by rw [h.regs]
  refine ⟨ho.lib, h1, h2, by rw [hspb]; exact ho.even, by rw [hspb]; exact ho.inside, ?_,
    by rw [hspb]; exact ho.apart, by rw [hrop]; exact ho.fits, ?_, by rw [hrop]; exact ho.constsApart⟩
  · rw [hspb, h.word (Nat.le_trans ho.inside.2 hb) ho.apart]
    exact ho.number
  · intro j hj
    rw [hrop, h.kept _ ?_ ?_]
    · exact ho.consts j hj
    · have := ho.fits.2
      show _ ≤ s.top
      omega
    · intro y hy ha
      have := ho.constsApart y _ hy ha
      omega

theorem Env.Keeps.output {Γ : Env} {lib : Lib} {ro : List Byte} {s t : VM} {b : Nat}
    {text : List Byte} (h : Γ.Keeps false s t) (ho : Γ.Output lib ro s b text) (hb : b ≤ s.top) :
    Γ.Output lib ro t b text := by
  have hio : t.io = s.io := h.quiet rfl
  refine h.output_of ho hb ?_ ?_
  · obtain ⟨h1, h2⟩ := ho.stream
    refine ⟨h1, ?_⟩
    unfold fileText at h2 ⊢
    rw [hio]; exact h2
  · have := ho.text
    unfold fileText at this ⊢
    rw [hio]; exact this

/-- The part of `Input` that does not depend on the files. -/
theorem Env.Keeps.input_of {Γ : Env} {lib : Lib} {w : Bool} {s t : VM} {b : Nat}
    {i i' : Inp} (h : Γ.Keeps w s t) (ho : Γ.Input lib s b i) (hb : b ≤ s.top)
    (h1 : ∃ pos, OpenIn t 0#16 .stdin pos ∧
      if i'.begun then ∃ tail, 10#8 ∉ tail ∧ i'.rest = tail ++ 10#8 :: (fileText t .stdin).drop pos
      else i'.rest = (fileText t .stdin).drop pos)
    (h2 : (t.io.table 0).eoln = i'.begun) : Γ.Input lib t b i' := by
  have hspb : t.spb = s.spb := by rw [h.regs]
  refine ⟨ho.lib, h1, h2, by rw [hspb]; exact ho.even, by rw [hspb]; exact ho.inside, ?_,
    by rw [hspb]; exact ho.apart⟩
  rw [hspb, h.word (Nat.le_trans ho.inside hb) ho.apart]
  exact ho.number

/-- The input is as before if the standard input is. -/
theorem Env.Keeps.input_same {Γ : Env} {lib : Lib} {w : Bool} {s t : VM} {b : Nat}
    {i : Inp} (h : Γ.Keeps w s t) (ho : Γ.Input lib s b i) (hb : b ≤ s.top)
    (h1 : t.io.table 0 = s.io.table 0) (h2 : t.io.files .stdin = s.io.files .stdin) :
    Γ.Input lib t b i := by
  refine h.input_of ho hb ?_ (by rw [h1]; exact ho.eoln)
  obtain ⟨pos, ⟨g1, g2, g3⟩, g4⟩ := ho.stream
  refine ⟨pos, ⟨g1, ?_, ?_⟩, ?_⟩
  · show (t.io.table 0).openMode = _
    rw [h1]; exact g2
  · show ∃ u, (t.io.table 0).stream = _ ∧ _
    rw [h1]; exact g3
  · unfold fileText at g4 ⊢
    rw [h2]; exact g4

theorem Env.Keeps.input {Γ : Env} {lib : Lib} {s t : VM} {b : Nat}
    {i : Inp} (h : Γ.Keeps false s t) (ho : Γ.Input lib s b i) (hb : b ≤ s.top) : Γ.Input lib t b i :=
  h.input_same ho hb (by rw [h.quiet rfl]) (by rw [h.quiet rfl])

/-- Nothing is written: the standard output is as before. -/
theorem Env.Keeps.has {Γ : Env} {lib : Lib} {ro : List Byte} {s t : VM} {b : Nat} {σ : State}
    (h : Γ.Keeps false s t) (hh : Γ.Has lib ro s b σ) (hb : b ≤ s.top) {S : Store}
    (hS : Γ.Holds t.mem S) : Γ.Has lib ro t b { σ with store := S } :=
  ⟨hS, fun text ht => h.output (hh.output text ht) hb, fun i hi => h.input (hh.input i hi) hb⟩

/-- Only the memory above the stack differs. -/
structure Quiet (s t : VM) : Prop where
  regs : t = { s with mem := t.mem }
  mem : ∀ j, j ≤ s.top → t.mem j = s.mem j

theorem Quiet.refl (s : VM) : Quiet s s := ⟨rfl, fun _ _ => rfl⟩
theorem Quiet.sp {s t : VM} (h : Quiet s t) : t.sp = s.sp := by rw [h.regs]
theorem Quiet.top {s t : VM} (h : Quiet s t) : t.top = s.top := by rw [VM.top, h.sp]; rfl
theorem Quiet.words {s t : VM} (h : Quiet s t) : t.words = s.words := by rw [h.regs]
theorem Quiet.free {s t : VM} {n : Nat} (h : Quiet s t) (hf : Free s n) : Free t n := by
  unfold Free; rw [h.top, h.words]; exact hf
theorem Quiet.keeps {s t : VM} (h : Quiet s t) (Γ : Env) (w : Bool) : Γ.Keeps w s t := by
  refine keeps_of_regs (x := s.sp) h.regs (fun a ha _ => ?_) w
  unfold byte; rw [h.mem _ ha]
theorem Quiet.same {s t : VM} (h : Quiet s t) {b : Nat} (hb : b ≤ s.top) : Same b s t :=
  ⟨h.words, by rw [h.regs], by rw [h.regs], fun j hj => h.mem j (Nat.le_trans hj hb),
    by rw [h.regs]⟩
theorem Quiet.trans {s t u : VM} (h : Quiet s t) (h' : Quiet t u) : Quiet s u := by
  refine ⟨?_, fun j hj => ?_⟩
  · have e1 := h.regs
    have e2 := h'.regs
    have := congrArg (fun z : VM => ({ z with mem := u.mem } : VM)) e1
    exact e2.trans this
  · rw [h'.mem j (by rw [h.top]; exact hj), h.mem j hj]

/-- A value was pushed and popped. -/
theorem Pushed.quiet {s t : VM} {n : Nat} {v : Word} (h : Pushed s n v t) : Quiet s (popN t 1) := by
  refine ⟨?_, fun j hj => h.kept j (.inl hj)⟩
  have e := regs_set h.regs (t.sp - 2#16) t.mem
  have e2 : t.sp - 2#16 = s.sp := by rw [h.sp]; bv_omega
  refine (show popN t 1 = _ from e).trans ?_
  rw [e2]
  rfl

/-! ### Steps -/

section
variable {lib : Lib} {addr : Nat → Word} {p : List OpType}

theorem one_step {a b : Nat × VM} (h : PStep lib addr p a b) : PSteps lib addr p a b :=
  .step h (.refl _)

theorem line_step {g : Cfg} {k m : Nat} (h : p[k]? = some (lineI g m)) (s : VM) :
    PSteps lib addr p (k, s) (k + 1, s) :=
  one_step (.mark h rfl)

theorem label_step {k l : Nat} (h : p[k]? = some (labI l)) (s : VM) :
    PSteps lib addr p (k, s) (k + 1, s) :=
  one_step (.mark h rfl)

theorem jump_arg {o : Op} (h : hasArg16 o.toByte = true) (l : Nat) :
    (ins o 0 (l : Int)).arg2 = BitVec.ofNat 16 l := by
  simp only [ins, h, if_true]
  simp

theorem jmp_step {k k' l : Nat} (h : p[k]? = some (ins .jmp 0 (l : Int)))
    (hl : LabelAt p (BitVec.ofNat 16 l) k') (s : VM) : PSteps lib addr p (k, s) (k', s) := by
  have e : popN s 0 = s := by
    unfold popN
    have : s.sp - BitVec.ofNat 16 (2 * 0) = s.sp := by simp
    rw [this]
  have := PStep.taken (lib := lib) (addr := addr) (s := s) h (o := .jmp) rfl .always trivial
    (k' := k') (by rw [jump_arg rfl]; exact hl)
  rw [e] at this
  exact one_step this

theorem Pushed.room {s t : VM} {n : Nat} {v : Word} (h : Pushed s n v t) (hf : Free s 1) :
    Room t 2 := by
  refine ⟨?_, ?_⟩
  · show 2 ≤ t.top + 1
    rw [h.top hf]; omega
  · show t.top < t.words
    rw [h.top hf, h.words]; exact hf.1

/-- A condition followed by a jump that is taken if it is false. -/
theorem cond_steps {Γ : Env} (hΓ : Γ.Ok) {σ : Store} {b : Nat} {e : E .expr}
    (hok : e.Ok Γ.vars (.a .bool) .bool) {c : Bool} (he : e.eval σ (.a .bool) = some (.bool c))
    {s : VM} (hi : Γ.In s b) (hh : Γ.Holds s.mem σ) (hb : b ≤ s.top) (hf : Free s e.toks.length)
    {k l : Nat} {rest : List OpType}
    (hat : At p k (code Γ.level (.a .bool) e ++ ins .jequz 0 (l : Int) :: rest)) :
    ∃ t, Quiet s t ∧
      (c = true → PSteps lib addr p (k, s) (k + (code Γ.level (.a .bool) e).length + 1, t)) ∧
      (c = false → ∀ k', LabelAt p (BitVec.ofNat 16 l) k' → PSteps lib addr p (k, s) (k', t)) := by
  obtain ⟨t, h1, h2, _, _⟩ := runs lib hΓ e _ _ _ s hok.2 he hok.1 hi hh hb hf
  have hf1 : Free s 1 := hf.mono (toks_pos e)
  have hr := h2.room hf1
  have hv : opnd t 0 = (Val.bool c).word := by
    show t.mem (t.top - 0) = _
    rw [h2.top hf1]; exact h2.value
  refine ⟨popN t 1, h2.quiet, ?_, ?_⟩
  · rintro rfl
    refine (h1.steps hat.left).append (one_step ?_)
    refine .fall hat.right.head (o := .jequz) rfl (.zero .jequz hr) ?_
    rw [hv]; decide
  · rintro rfl k' hk'
    refine (h1.steps hat.left).append (one_step ?_)
    refine .taken hat.right.head (o := .jequz) rfl (.zero .jequz hr) ?_ ?_
    · rw [hv]; decide
    · rw [jump_arg rfl]; exact hk'

/-- An assignment. -/
theorem assign_steps {Γ : Env} (hΓ : Γ.Ok) {σ : Store} {b : Nat} {e : E .expr} {x : Variable}
    (hx : Γ.vars x) (hok : e.Ok Γ.vars (.a x.ty) x.ty) {v : Val} (he : e.eval σ (.a x.ty) = some v)
    {s : VM} (hi : Γ.In s b) (hh : Γ.Holds s.mem σ) (hb : b ≤ s.top) (hf : Free s e.toks.length)
    {k : Nat} {o : Op} (ho : o = stO x.ty) {rest : List OpType}
    (hat : At p k (code Γ.level (.a x.ty) e ++ ref Γ.level o x :: rest)) :
    v.Ranged ∧ v.ty = x.ty ∧ ∃ t,
      PSteps lib addr p (k, s) (k + (code Γ.level (.a x.ty) e).length + 1, t) ∧
      Γ.Keeps false s t ∧ t.sp = s.sp ∧ Γ.Holds t.mem (σ.set x v.trim) := by
  subst ho
  obtain ⟨t, h1, h2, h3, h4⟩ := runs lib hΓ e _ _ _ s hok.2 he hok.1 hi hh hb hf
  have hf1 : Free s 1 := hf.mono (toks_pos e)
  have hsame := h2.same hb
  have hv : t.mem t.top = v.word := by rw [h2.top hf1]; exact h2.value
  obtain ⟨m, g1, g2, g3⟩ := store_runs (lib := lib) hΓ (hsame.in_ hi) (hsame.holds hi hh)
    (by rw [h2.top hf1, h2.words]; exact hf1.1) hx h3 h4 hv
  have e2 : t.sp - 2#16 = s.sp := by rw [h2.sp]; bv_omega
  refine ⟨h3, h4, _, (h1.steps hat.left).append (g1.steps ?_), ?_, e2, g2⟩
  · exact (show At p _ ([ref Γ.level (stO x.ty) x] ++ rest) from hat.right).left
  · refine keeps_of_regs (x := t.sp - 2#16) ?_ ?_ _
    · have := regs_set h2.regs (t.sp - 2#16) m
      exact this
    · intro a ha hn
      show byte m a = _
      rw [g3 a (hn x hx)]
      unfold byte
      rw [h2.kept _ (.inl ha)]

/-- An assignment to an element. -/
theorem assignAt_steps {Γ : Env} (hΓ : Γ.Ok) {σ : Store} {b : Nat} {i e : E .expr} {a : Arr}
    (ha : a.Ok) (hx : ∀ x ∈ a.elems, Γ.vars x) (hio : i.Ok Γ.vars (.a (.num .integer)) (.num .integer))
    (hok : e.Ok Γ.vars (.a a.ty) a.ty) {w v : Val} {j : Nat}
    (hie : i.eval σ (.a (.num .integer)) = some w) (hj : a.pick w = some j)
    (he : e.eval σ (.a a.ty) = some v)
    {s : VM} (hi : Γ.In s b) (hh : Γ.Holds s.mem σ) (hb : b ≤ s.top)
    (hf : Free s (max (i.toks.length + 1) (1 + e.toks.length)))
    {k : Nat} {rest : List OpType}
    (hat : At p k (code Γ.level (.a (.num .integer)) i ++ idxI a ++ code Γ.level (.a a.ty) e ++
      ref Γ.level (stxO a.ty) a.base :: rest)) :
    v.Ranged ∧ v.ty = a.ty ∧ ∃ t,
      PSteps lib addr p (k, s) (k + (code Γ.level (.a (.num .integer)) i ++ idxI a ++
        code Γ.level (.a a.ty) e).length + 1, t) ∧
      Γ.Keeps false s t ∧ t.sp = s.sp ∧ Γ.Holds t.mem (σ.set (a.elem j) v.trim) := by
  have pi := toks_pos i
  have pe := toks_pos e
  obtain ⟨t0, h1, h2, h3, h4⟩ := runs lib hΓ i _ _ _ s hio.2 hie hio.1 hi hh hb (hf.mono (by omega))
  obtain ⟨ti, rfl, hj1, hj2⟩ := pick_some hj
  have hf1 : Free s 1 := hf.mono (by omega)
  have hf2 : Free s 2 := hf.mono (by omega)
  obtain ⟨u, g1, g2⟩ := idx_runs (lib := lib) ha hj1 hj2 h2 hf2
  have hsame := g2.same hb
  have hut := g2.top hf1
  obtain ⟨t, r1, r2, r3, r4⟩ := runs lib hΓ e _ _ _ u hok.2 he hok.1 (hsame.in_ hi) (hsame.holds hi hh)
    (by omega) (g2.free (hf.mono (by omega)))
  have hsame' := r2.same (show b ≤ u.top by omega)
  have hfu : Free u 1 := g2.free hf2
  have htt := r2.top hfu
  have hv : t.mem t.top = v.word := by rw [htt]; exact r2.value
  have hoff : t.mem (t.top - 1) = BitVec.ofInt 16 (a.rel j) := by
    rw [htt, Nat.add_sub_cancel, r2.kept u.top (.inl (Nat.le_refl _)), hut]
    exact g2.value
  obtain ⟨m, q1, q2, q3⟩ := storex_runs (lib := lib) hΓ (hsame'.in_ (hsame.in_ hi))
    (hsame'.holds (hsame.in_ hi) (hsame.holds hi hh)) (by omega)
    (by rw [htt, hut, r2.words, g2.words]; have := hf2.1; omega) hj1 (hx _ (Arr.elem_mem hj1 hj2)) r3 r4 hv hoff
  have e2 : t.sp - 4#16 = s.sp := by rw [r2.sp, g2.sp]; bv_omega
  have hat' : At p k ((code Γ.level (.a (.num .integer)) i ++ idxI a ++ code Γ.level (.a a.ty) e) ++
      ([ref Γ.level (stxO a.ty) a.base] ++ rest)) := hat
  refine ⟨r3, r4, _, ((((h1.append g1).append r1).steps hat'.left).append (q1.steps hat'.right.left)),
    ?_, e2, q2⟩
  refine keeps_of_regs (x := t.sp - 4#16) ?_ ?_ _
  · exact (regs_set r2.regs (t.sp - 4#16) m).trans (regs_set g2.regs (t.sp - 4#16) m)
  · intro c hc hn
    show byte m c = _
    rw [q3 c (hn _ (hx _ (Arr.elem_mem hj1 hj2)))]
    unfold byte
    rw [r2.kept _ (.inl (by have h : c / 2 ≤ s.top := hc; show c / 2 ≤ u.top; omega)), g2.kept _ (.inl hc)]

end

end Pas.Src
