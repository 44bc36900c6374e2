import Verif.Spec.RealRead
import Verif.Lemmas.Float
import Verif.Lemmas.FilesRead
import Mathlib.Tactic.Ring
import Mathlib.Tactic.Positivity
import Mathlib.Tactic.FieldSimp
import Mathlib.Data.Rat.Floor

/-! Lemmas for READ of REALs. -/
namespace Pas.SysIo
open Spec FloatOps

theorem realIs_ofInt {i : Int} (h : i.natAbs < 2 ^ 53) : RealIs (ofInt i) i :=
  ⟨_, denotes_ofInt h, by push_cast; rw [mul_div_assoc, div_self (by positivity), mul_one]⟩

theorem realIs_neg {x : BitVec 64} {q : ℚ} (h : RealIs x q) : RealIs (fneg x) (-q) := by
  obtain ⟨v, h1, rfl⟩ := h
  exact ⟨-v, denotes_neg h1, by push_cast; rw [neg_div]⟩

theorem realIs_ten : RealIs 0x4024000000000000#64 10 := by
  refine ⟨(2 ^ 52 + 2 ^ 50) * 2 ^ 1025, ⟨false, 1026, 2 ^ 50, by decide, by decide, by decide, ?_⟩, ?_⟩
  · norm_num
  · push_cast
    rw [show (2 : ℚ) ^ 1074 = 2 ^ 1025 * 2 ^ 49 by rw [← pow_add], mul_comm (5629499534213120 : ℚ),
      mul_div_mul_left _ _ (by positivity)]
    norm_num

theorem realIs_tenth : ∃ t, RealIs 0x3fb999999999999a#64 t ∧ |t - 1 / 10| ≤ 1 / 2 ^ 52 := by
  refine ⟨_, ⟨(2 ^ 52 + 0x999999999999a) * 2 ^ 1018, ⟨false, 1019, 0x999999999999a, by decide, by decide, by decide, ?_⟩, rfl⟩, ?_⟩
  · norm_num
  · push_cast
    rw [show (2 : ℚ) ^ 1074 = 2 ^ 1018 * 2 ^ 56 by rw [← pow_add], mul_comm (7205759403792794 : ℚ),
      mul_div_mul_left _ _ (by positivity), abs_le]
    constructor <;> norm_num

theorem tiny : (1 : ℚ) / 2 ^ 1074 ≤ 1 / 2 ^ 60 ∧ 0 ≤ (1 : ℚ) / 2 ^ 1074 :=
  ⟨one_div_le_one_div_of_le (by positivity) (pow_le_pow_right₀ (by norm_num) (by norm_num)), by positivity⟩

theorem huge : (2 : ℚ) ^ 40 ≤ 2 ^ 1000 := pow_le_pow_right₀ (by norm_num) (by norm_num)

/-- The value of the digits behind the point. -/
def fracVal : List Byte → ℚ
  | [] => 0
  | b :: l => (((b.toNat - 48 : ℕ) : ℚ) + fracVal l) / 10

/-- The loop over the fraction: `t` is the power of ten of the next digit, `a` the exact number so far. -/
theorem fracPart_ok {fpu : Fpu} (hf : Ieee fpu) (V : ℚ) (hV0 : 0 ≤ V) (hV : V ≤ 2 ^ 32) :
    ∀ (ds tail : List Byte) (r f : BitVec 64) (ρ φ a t δ : ℚ), (∀ b ∈ ds, 48 ≤ b.toNat ∧ b.toNat ≤ 57) →
      (∀ c, tail.head? = some c → ¬(48 ≤ c.toNat ∧ c.toNat ≤ 57)) →
      RealIs r ρ → RealIs f φ → |φ - t| ≤ 1 / 2 ^ 52 → 0 ≤ t → t ≤ 1 / 10 → 0 ≤ a → a + 10 * t ≤ V + 1 →
      |ρ - a| ≤ δ → δ + ds.length * ((V + 15) / 2 ^ 52) ≤ 1 →
      ∃ q, RealIs (fracPart fpu r f (ds ++ tail)) q ∧
        |q - (a + 10 * t * fracVal ds)| ≤ δ + ds.length * ((V + 15) / 2 ^ 52) := by
  obtain ⟨hη, hη0⟩ := tiny
  have hadd : ∀ x y a b, RealIs x a → RealIs y b → |a + b| ≤ 2 ^ 40 → _ := fun x y a b h1 h2 h3 =>
    hf.add x y a b h1 h2 (le_trans h3 huge)
  have hmul : ∀ x y a b, RealIs x a → RealIs y b → |a * b| ≤ 2 ^ 40 → _ := fun x y a b h1 h2 h3 =>
    hf.mul x y a b h1 h2 (le_trans h3 huge)
  have hdiv : ∀ x y a b, RealIs x a → RealIs y b → b ≠ 0 → |a / b| ≤ 2 ^ 40 → _ := fun x y a b h1 h2 h0 h3 =>
    hf.div x y a b h1 h2 h0 (le_trans h3 huge)
  generalize hη1 : (1 : ℚ) / 2 ^ 1074 = η at hη hη0 hadd hmul hdiv
  clear hη1
  intro ds
  induction ds with
  | nil =>
    intro tail r f ρ φ a t δ _ ht hr _ _ _ _ _ _ hδ _
    refine ⟨ρ, ?_, by simpa [fracVal] using hδ⟩
    cases tail with
    | nil => exact hr
    | cons c l =>
      rw [List.nil_append, fracPart, if_neg (by rw [isdigit_iff]; exact ht c rfl)]
      exact hr
  | cons b ds ih =>
    intro tail r f ρ φ a t δ hd ht hr hφ hφt ht0 ht1 ha hat hρ hB
    have hb := hd b List.mem_cons_self
    rw [List.cons_append, fracPart, if_pos ((isdigit_iff b).mpr hb)]
    rw [show ((b.toNat : Int) - 48) = ((b.toNat - 48 : ℕ) : Int) by omega]
    have hd9 : b.toNat - 48 ≤ 9 := by omega
    generalize hdd : b.toNat - 48 = d at *
    have hd0 : (0 : ℚ) ≤ d := Nat.cast_nonneg d
    have hd9' : (d : ℚ) ≤ 9 := by exact_mod_cast hd9
    have hdr : RealIs (ofInt (d : Int)) (d : ℚ) := by
      have := realIs_ofInt (i := (d : Int)) (by simp; omega)
      simpa using this
    rw [abs_le] at hφt hρ
    have hφd1 : φ * d - t * d ≤ 9 / 2 ^ 52 := by nlinarith
    have hφd2 : -(9 / 2 ^ 52) ≤ φ * d - t * d := by nlinarith
    have htd1 : t * d ≤ 9 * t := by nlinarith
    have htd0 : 0 ≤ t * d := mul_nonneg ht0 hd0
    have habs : |φ * d| ≤ 1 := by rw [abs_le]; constructor <;> linarith
    obtain ⟨p, hp, hpe⟩ := hmul _ _ _ _ hφ hdr (by linarith)
    rw [abs_le] at hpe
    have hlen : (0 : ℚ) ≤ ds.length * ((V + 15) / 2 ^ 52) := by positivity
    rw [List.length_cons] at hB ⊢
    push_cast at hB ⊢
    have hρp : |ρ + p| ≤ V + 3 := by rw [abs_le]; constructor <;> linarith
    obtain ⟨c, hc, hce⟩ := hadd _ _ _ _ hr hp (by linarith)
    rw [abs_le] at hce
    have hφ10 : |φ / 10| ≤ 1 / 40 := by rw [abs_le]; constructor <;> linarith
    obtain ⟨φ', hφ', hφe⟩ := hdiv _ _ _ _ hφ realIs_ten (by norm_num) (by linarith)
    rw [abs_le] at hφe
    obtain ⟨q, hq1, hq2⟩ := ih tail _ _ c φ' (a + t * d) (t / 10) (δ + (V + 15) / 2 ^ 52)
      (fun x hx => hd x (List.mem_cons_of_mem _ hx)) ht hc hφ'
      (by rw [abs_le]; constructor <;> linarith) (by linarith) (by linarith) (by linarith) (by linarith)
      (by rw [abs_le]; constructor <;> linarith) (by linarith)
    refine ⟨q, hq1, ?_⟩
    rw [fracVal, hdd]
    rw [show a + 10 * t * ((↑d + fracVal ds) / 10) = a + t * d + 10 * (t / 10) * fracVal ds by ring,
      show δ + (↑ds.length + 1) * ((V + 15) / 2 ^ 52) = δ + (V + 15) / 2 ^ 52 + ds.length * ((V + 15) / 2 ^ 52) by ring]
    exact hq2

theorem intPart_ok : ∀ (d tail : List Byte) (v : Nat), (∀ b ∈ d, 48 ≤ b.toNat ∧ b.toNat ≤ 57) →
    (∀ c, tail.head? = some c → ¬(48 ≤ c.toNat ∧ c.toNat ≤ 57)) → val d v ≤ 2147483599 →
    intPart v (d ++ tail) = .ok (val d v, tail) := by
  intro d
  induction d with
  | nil =>
    intro tail v _ ht _
    cases tail with
    | nil => rfl
    | cons c t =>
      rw [List.nil_append, intPart, if_neg (by rw [isdigit_iff]; exact ht c rfl)]
      rfl
  | cons b d ih =>
    intro tail v hd ht hv
    have hb := hd b List.mem_cons_self
    have hv : val d (10 * v + (b.toNat - 48)) ≤ 2147483599 := hv
    have := val_ge d (10 * v + (b.toNat - 48))
    rw [List.cons_append, intPart, if_pos ((isdigit_iff b).mpr hb), if_pos (by omega),
      show 10 * v + b.toNat - 48 = 10 * v + (b.toNat - 48) by omega,
      ih _ _ (fun x hx => hd x (List.mem_cons_of_mem _ hx)) ht hv]
    rfl

theorem fracVal_eq : ∀ (d : List Byte) (v : Nat), (v + fracVal d : ℚ) = (val d v : ℚ) / 10 ^ d.length
  | [], v => by simp [fracVal, val]
  | b :: d, v => by
    have := fracVal_eq d (10 * v + (b.toNat - 48))
    rw [show val (b :: d) v = val d (10 * v + (b.toNat - 48)) from rfl, List.length_cons, pow_succ, ← div_div, ← this,
      fracVal]
    push_cast
    ring

theorem not_sign {w tail : List Byte} (h : ∀ b ∈ w, 48 ≤ b.toNat ∧ b.toNat ≤ 57)
    (ht : ∀ c, tail.head? = some c → c ≠ 43#8 ∧ c ≠ 45#8) : (w ++ tail).head? ≠ some 43#8 ∧ (w ++ tail).head? ≠ some 45#8 := by
  cases w with
  | nil =>
    rw [List.nil_append]
    constructor <;> intro e
    · exact (ht _ e).1 rfl
    · exact (ht _ e).2 rfl
  | cons b w =>
    have := h b List.mem_cons_self
    constructor <;> (intro e; injection e with e; subst e; revert this; decide)

/-- `libexec_ConvertReal` behind the sign. -/
theorem unsigned_ok {fpu : Fpu} (hf : Ieee fpu) {w tail : List Byte} {i n f : Nat} (h : RealUnsigned w i n f)
    (ht : Ends n tail) (hi : i ≤ 2147483599) (hn : n ≤ 65536) :
    ∃ q, (do
        let (v, l) ← intPart 0 (w ++ tail)
        let r := ofInt v
        pure (if l.head? = some 46#8 then fracPart fpu r 0x3fb999999999999a#64 l.tail else r) : Res (BitVec 64)) = .ok q ∧
      ∃ x, RealIs q x ∧ |x - ((i : ℚ) + f / 10 ^ n)| ≤ n * ((i + 15) / 2 ^ 52) := by
  cases h with
  | whole hd =>
    have hv : val w 0 = i := hd.value
    rw [intPart_ok w tail 0 hd.digits (fun c hc => (ht c hc).1) (by omega), Res.ok_bind, hv]
    dsimp only
    rw [if_neg (fun h => (ht _ h).2.1 rfl rfl)]
    refine ⟨_, rfl, i, ?_, by simp⟩
    have := realIs_ofInt (i := (i : Int)) (by simp; omega)
    simpa using this
  | @point w d _ _ hd hdd =>
    have hv : val w 0 = i := hd.value
    have hv' : val d 0 = f := hdd.value
    rw [show w ++ 46#8 :: d ++ tail = w ++ (46#8 :: (d ++ tail)) by simp,
      intPart_ok w _ 0 hd.digits (fun c hc => by injection hc with hc; subst hc; decide) (by omega), Res.ok_bind, hv]
    simp only [List.head?_cons, List.tail_cons, if_true]
    obtain ⟨t, h1, h2⟩ := realIs_tenth
    have hr := realIs_ofInt (i := (i : Int)) (by simp; omega)
    have hir : (i : ℚ) ≤ 2147483599 := by exact_mod_cast hi
    have hi0 : (0 : ℚ) ≤ i := Nat.cast_nonneg i
    have hnr : (d.length : ℚ) ≤ 65536 := by exact_mod_cast hn
    obtain ⟨q, hq, he⟩ := fracPart_ok hf i hi0 (by linarith) d tail _ _ (i : ℚ) t i (1 / 10) 0 hdd.digits
      (fun c hc => (ht c hc).1) (by simpa using hr) h1 h2 (by norm_num) (by norm_num) hi0 (by linarith) (by simp) (by
        have : (d.length : ℚ) * ((i + 15) / 2 ^ 52) ≤ 65536 * ((2147483599 + 15) / 2 ^ 52) :=
          mul_le_mul hnr (by linarith) (by positivity) (by norm_num)
        linarith)
    refine ⟨_, rfl, q, hq, ?_⟩
    have := fracVal_eq d 0
    rw [hv'] at this
    simp only [Nat.cast_zero, zero_add] at this
    rw [this] at he
    simpa using he

theorem convertReal_ok {fpu : Fpu} (hf : Ieee fpu) {w tail : List Byte} {neg : Bool} {i n f : Nat}
    (h : RealText w neg i n f) (ht : Ends n tail) (hi : i ≤ 2147483599) (hn : n ≤ 65536) :
    ∃ q, convertReal fpu (w ++ tail) = .ok q ∧
      ∃ x, RealIs q x ∧ |x - written neg i n f| ≤ n * ((i + 15) / 2 ^ 52) := by
  have key : ∀ {w : List Byte} {neg : Bool}, RealUnsigned w i n f →
      ∃ q, (do
        let (v, l) ← intPart 0 (w ++ tail)
        let r := ofInt v
        let r := if l.head? = some 46#8 then fracPart fpu r 0x3fb999999999999a#64 l.tail else r
        pure (if neg then fneg r else r) : Res (BitVec 64)) = .ok q ∧
      ∃ x, RealIs q x ∧ |x - written neg i n f| ≤ n * ((i + 15) / 2 ^ 52) := by
    intro w neg h
    obtain ⟨q, hq, x, hx, he⟩ := unsigned_ok hf h ht hi hn
    generalize intPart 0 (w ++ tail) = e at hq ⊢
    cases e with
    | ub => exact absurd hq (by simp [bind, Res.bind])
    | hang => exact absurd hq (by simp [bind, Res.bind])
    | ok e =>
      obtain ⟨v, l⟩ := e
      simp only [Res.ok_bind, Res.pure_eq, Res.ok.injEq] at hq ⊢
      rw [hq]
      refine ⟨_, rfl, ?_⟩
      cases neg
      · exact ⟨x, hx, by simpa [written] using he⟩
      · refine ⟨-x, realIs_neg hx, ?_⟩
        rw [← abs_neg]
        have : -(-x - written true i n f) = x - ((i : ℚ) + f / 10 ^ n) := by
          simp only [written, if_true]; ring
        rw [this]; exact he
  cases h with
  | none h =>
    have hs : (w ++ tail).head? ≠ some 43#8 ∧ (w ++ tail).head? ≠ some 45#8 := by
      cases h with
      | whole hd h0 =>
        cases w with
        | nil => exact absurd rfl h0
        | cons b w =>
          have := hd.digits b List.mem_cons_self
          constructor <;> (intro e; injection e with e; subst e; revert this; decide)
      | point hd hdd =>
        rw [List.append_assoc]
        refine not_sign hd.digits fun c hc => ?_
        injection hc with hc
        subst hc
        decide
    unfold convertReal
    dsimp only
    rw [if_neg (by rintro (h | h); exact hs.1 h; exact hs.2 h)]
    obtain ⟨q, hq, h⟩ := key (neg := false) h
    refine ⟨q, ?_, h⟩
    simp only [hs.2, if_false, Bool.false_eq_true] at hq ⊢
    exact hq
  | plus h =>
    obtain ⟨q, hq, h⟩ := key (neg := false) h
    exact ⟨q, by rw [← hq]; rfl, h⟩
  | minus h =>
    obtain ⟨q, hq, h⟩ := key (neg := true) h
    exact ⟨q, by rw [← hq]; rfl, h⟩

theorem readReal_line {fpu : Fpu} {s : VM} {n dest : Word} {t : Stream} {line more : List Byte} {x : BitVec 64}
    (h : n.toNat < 8) (hm : (s.io.table n.toNat).openMode = .read) (ht : (s.io.table n.toNat).stream = some t)
    (hl : LineComes s t.file t.pos line more) (h0 : line ≠ []) (hlen : line.length ≤ 254)
    (he : dest.toNat % 2 = 0) (hd : dest.toNat / 2 + 3 < s.words) (hx : convertReal fpu line = .ok x) :
    ∃ m, readReal fpu s n.toNat dest = .ok (eNOERROR, { s with
        mem := m
        io := afterLine s n.toNat t (line.length + 1) true line }) ∧
      realAt m (dest.toNat / 2) = x ∧ ∀ j, (j < dest.toNat / 2 ∨ dest.toNat / 2 + 4 ≤ j) → m j = s.mem j := by
  unfold readReal
  rw [withRead_ok h hm ht, readBuffer_line hl h0 hlen]
  dsimp only [afterLine]
  rw [hx, Res.ok_bind, Str.wrF_eq _ _ he (by exact Nat.lt_of_le_of_lt (by omega) hd), Res.ok_bind,
    Str.wrF_eq _ _ he (by exact Nat.lt_of_le_of_lt (by omega) hd), Res.ok_bind,
    Str.wrF_eq _ _ he (by exact Nat.lt_of_le_of_lt (by omega) hd), Res.ok_bind,
    Str.wrF_eq _ _ he (by exact hd), Res.ok_bind]
  refine ⟨_, rfl, ?_, ?_⟩
  · simp only [realAt, updW, Nat.add_zero, BitVec.ofNat_toNat, BitVec.setWidth_eq]
    simp only [Nat.add_left_cancel_iff, Nat.reduceEqDiff, if_true, if_false, Nat.add_eq_left, Nat.left_eq_add,
      OfNat.ofNat_ne_zero, one_ne_zero]
    exact real_split x
  · intro j hj
    simp only [updW]
    rw [if_neg (by omega), if_neg (by omega), if_neg (by omega), if_neg (by omega)]

/-- There is arithmetic that rounds as required. -/
theorem exists_near (q : ℚ) (h : |q| ≤ 2 ^ 1000) : ∃ x c, RealIs x c ∧ |c - q| ≤ |q| / 2 ^ 52 + 1 / 2 ^ 1074 := by
  have pos : ∀ q : ℚ, 0 ≤ q → q ≤ 2 ^ 1000 → ∃ x c, RealIs x c ∧ |c - q| ≤ q / 2 ^ 52 + 1 / 2 ^ 1074 := by
    intro q h0 h1
    have hP : (0 : ℚ) < 2 ^ 1074 := by positivity
    have a1 := Nat.floor_le (show 0 ≤ q * 2 ^ 1074 by positivity)
    have a2 := Nat.lt_floor_add_one (q * 2 ^ 1074)
    generalize ⌊q * 2 ^ 1074⌋₊ = n at a1 a2
    have hn : n ≤ 2 ^ 2074 := by
      have : (n : ℚ) ≤ 2 ^ 2074 := by
        refine le_trans a1 ?_
        rw [show (2 : ℚ) ^ 2074 = 2 ^ 1000 * 2 ^ 1074 by rw [← pow_add]]
        exact mul_le_mul_of_nonneg_right h1 hP.le
      exact_mod_cast this
    have conv : ∀ v : ℕ, v ≤ n → (n : ℚ) + 1 - v ≤ q * 2 ^ 1074 / 2 ^ 52 + 1 →
        |((v : Int) : ℚ) / 2 ^ 1074 - q| ≤ q / 2 ^ 52 + 1 / 2 ^ 1074 := by
      intro v hv hd
      have hv' : (v : ℚ) ≤ n := by exact_mod_cast hv
      have e1 : ((v : Int) : ℚ) / 2 ^ 1074 - q = (v - q * 2 ^ 1074) / 2 ^ 1074 := by
        rw [sub_div, mul_div_assoc, div_self hP.ne', mul_one]; simp
      have e2 : q / 2 ^ 52 + 1 / 2 ^ 1074 = (q * 2 ^ 1074 / 2 ^ 52 + 1) / 2 ^ 1074 := by
        rw [add_div, div_right_comm, mul_div_assoc q, div_self hP.ne', mul_one]
      rw [e1, e2, abs_div, abs_of_pos hP]
      refine div_le_div_of_nonneg_right ?_ hP.le
      rw [abs_of_nonpos (by linarith)]
      linarith
    by_cases hs : n < 2 ^ 52
    · refine ⟨BitVec.ofNat 64 n, _, ⟨(n : Int), ⟨false, 0, n, by decide, hs, ?_, ?_⟩, rfl⟩, conv n le_rfl ?_⟩
      · rw [BitVec.toNat_ofNat, Nat.mod_eq_of_lt (by omega)]; simp
      · simp
      · have : 0 ≤ q * 2 ^ 1074 / 2 ^ 52 := by positivity
        generalize q * 2 ^ 1074 / 2 ^ 52 = z at this
        linarith
    · have hn0 : n ≠ 0 := by omega
      have k1 := Nat.log2_self_le hn0
      have k2 := Nat.lt_log2_self (n := n)
      have hk : n.log2 < 2075 := by
        apply Nat.lt_of_not_le
        intro hk
        have := Nat.pow_le_pow_right (show 0 < 2 by omega) hk
        have h2 : (2 : ℕ) ^ 2074 < 2 ^ 2075 := Nat.pow_lt_pow_right (by omega) (by omega)
        omega
      have hk' : 52 ≤ n.log2 := by
        apply Nat.le_of_not_lt
        intro hk
        have := Nat.pow_le_pow_right (show 0 < 2 by omega) (show n.log2 + 1 ≤ 52 by omega)
        omega
      obtain ⟨j, hj⟩ := Nat.exists_eq_add_of_le hk'
      rw [hj] at k1 k2 hk
      have hj0 : 0 < 2 ^ j := Nat.pow_pos (by omega)
      have m1 : 2 ^ 52 ≤ n / 2 ^ j := (Nat.le_div_iff_mul_le hj0).mpr (by rw [← Nat.pow_add]; exact k1)
      have m2 : n / 2 ^ j < 2 ^ 53 := (Nat.div_lt_iff_lt_mul hj0).mpr (by
        rw [← Nat.pow_add]; rw [show 53 + j = 52 + j + 1 by omega]; exact k2)
      have m3 := Nat.div_add_mod n (2 ^ j)
      have m4 := Nat.mod_lt n hj0
      generalize hm : n / 2 ^ j = m at m1 m2 m3
      refine ⟨BitVec.ofNat 64 ((j + 1) * 2 ^ 52 + (m - 2 ^ 52)), _,
        ⟨((m * 2 ^ j : ℕ) : Int), ⟨false, j + 1, m - 2 ^ 52, by omega, by omega, ?_, ?_⟩, rfl⟩, conv _ ?_ ?_⟩
      · rw [BitVec.toNat_ofNat, Nat.mod_eq_of_lt (by omega)]; simp
      · rw [if_neg (by decide), if_neg (by omega), show 2 ^ 52 + (m - 2 ^ 52) = m by omega]
        push_cast
        simp
      · rw [Nat.mul_comm]; omega
      · have hb : (n + 1 : ℕ) ≤ m * 2 ^ j + 2 ^ j := by rw [Nat.mul_comm m]; omega
        have hb' : ((n + 1 : ℕ) : ℚ) ≤ ((m * 2 ^ j + 2 ^ j : ℕ) : ℚ) := by exact_mod_cast hb
        have hc : 2 ^ 52 * 2 ^ j ≤ n := by rw [← Nat.pow_add]; exact k1
        have hc' : ((2 ^ 52 * 2 ^ j : ℕ) : ℚ) ≤ (n : ℚ) := by exact_mod_cast hc
        have hd : (2 : ℚ) ^ j ≤ q * 2 ^ 1074 / 2 ^ 52 := by
          rw [le_div_iff₀ (by positivity)]
          push_cast at hc'
          linarith
        push_cast at hb' ⊢
        linarith
  rcases le_total 0 q with h0 | h0
  · rw [abs_of_nonneg h0] at h ⊢
    exact pos q h0 h
  · rw [abs_of_nonpos h0] at h ⊢
    obtain ⟨x, c, hx, hc⟩ := pos (-q) (by linarith) h
    refine ⟨fneg x, -c, realIs_neg hx, ?_⟩
    rw [← abs_neg, show -(-c - q) = c - -q by ring]
    exact hc

theorem realIs_scaled {x : BitVec 64} {q : ℚ} (h : RealIs x q) : q = scaled x / 2 ^ 1074 := by
  obtain ⟨v, h1, rfl⟩ := h
  rw [(denotes_parts h1).2.2]

open Classical in
noncomputable def near (q : ℚ) : BitVec 64 :=
  if h : |q| ≤ 2 ^ 1000 then (exists_near q h).choose else 0

theorem near_ok {q : ℚ} (h : |q| ≤ 2 ^ 1000) : ∃ c, RealIs (near q) c ∧ |c - q| ≤ |q| / 2 ^ 52 + 1 / 2 ^ 1074 := by
  rw [near, dif_pos h]
  exact (exists_near q h).choose_spec

theorem near_of {x y : BitVec 64} {a b : ℚ} (op : ℚ → ℚ → ℚ) (ha : RealIs x a) (hb : RealIs y b)
    (h : |op a b| ≤ 2 ^ 1000) : ∃ c, RealIs (near (op (scaled x / 2 ^ 1074) (scaled y / 2 ^ 1074))) c ∧
      |c - op a b| ≤ |op a b| / 2 ^ 52 + 1 / 2 ^ 1074 := by
  have ea := realIs_scaled ha
  have eb := realIs_scaled hb
  rw [← ea, ← eb]
  exact near_ok h

attribute [irreducible] near

/-- The requirements on the arithmetic can be met. -/
theorem ieee_exists : ∃ fpu, Ieee fpu :=
  ⟨⟨fun x y => near ((· + ·) ((scaled x : ℚ) / 2 ^ 1074) ((scaled y : ℚ) / 2 ^ 1074)), fun _ _ => 0,
    fun x y => near ((· * ·) ((scaled x : ℚ) / 2 ^ 1074) ((scaled y : ℚ) / 2 ^ 1074)),
    fun x y => near ((· / ·) ((scaled x : ℚ) / 2 ^ 1074) ((scaled y : ℚ) / 2 ^ 1074)),
    fun _ => 0, fun _ => 0, fun _ => 0, fun _ => 0, fun _ => 0, fun _ => 0⟩,
   fun _ _ _ _ ha hb h => near_of (· + ·) ha hb h, fun _ _ _ _ ha hb h => near_of (· * ·) ha hb h,
   fun _ _ _ _ ha hb _ h => near_of (· / ·) ha hb h⟩

end Pas.SysIo
