import Verif.Spec.Program
import Verif.Lemmas.Names
import Verif.Lemmas.CompCall
import Verif.Lemmas.ConstExpr

/-! Lemmas about the declaration part of a program. -/
namespace Pas.Src
open Pas.Comp
open Pas.Names (strcasecmp mapToAlias aliases mapToAlias_go aliases_sorted strcasecmp_eq)
open Pas.Spec (SameName Pointwise)

theorem SameName.trans {a b c : List Byte} (h : SameName a b) (h' : SameName b c) : SameName a c :=
  Eq.trans h h'
theorem SameName.symm {a b : List Byte} (h : SameName a b) : SameName b a := Eq.symm h

/-- The symbol of a declared name. -/
def Ent.sym : Ent → Comp.Sym
  | .var x => .var ⟨x.ty.kind, x.level, x.off⟩
  | .arr a => .arr ⟨a.ty.kind, a.level, a.off, [(a.lo, a.ty.size)]⟩
  | .proc q => .proc ⟨q.level, q.label, q.parms.map Ty.kind⟩
  | .const v => .const v.literal

/-- The symbol table when the names of the scope are declared. -/
def table (sc : Scope) : List (List Byte × Comp.Sym) := primed ++ sc.map fun e => (e.1, e.2.sym)

theorem table_append (a b : Scope) : table (a ++ b) = table a ++ b.map fun e => (e.1, e.2.sym) := by
  simp [table]

theorem find_append (a b : List (List Byte × Comp.Sym)) (n : List Byte) :
    find (a ++ b) n 0 = (find b n 0).or (find a n 0) := by
  simp only [find, List.drop_zero, List.reverse_append, List.find?_append]
  cases (b.reverse.find? _) <;> rfl

theorem find_drop (a b : List (List Byte × Comp.Sym)) (n : List Byte) :
    find (a ++ b) n a.length = find b n 0 := by
  simp [find]

theorem find_none {tab : List (List Byte × Comp.Sym)} {n : List Byte}
    (h : ∀ e ∈ tab, ¬ SameName e.1 n) : find tab n 0 = none := by
  simp only [find, List.drop_zero, Option.map_eq_none_iff, List.find?_eq_none, List.mem_reverse,
    decide_eq_true_eq, strcasecmp_eq]
  exact h

theorem find_one {tab : List (List Byte × Comp.Sym)} {n : List Byte} {e : List Byte × Comp.Sym} (he : e ∈ tab)
    (hn : SameName e.1 n) (h : ∀ e' ∈ tab, SameName e'.1 n → e' = e) : find tab n 0 = some e.2 := by
  simp only [find, List.drop_zero, Option.map_eq_some_iff]
  cases hf : tab.reverse.find? fun e => strcasecmp e.1 n = .eq with
  | none =>
    rw [List.find?_eq_none] at hf
    have := hf e (by simpa using he)
    simp only [decide_eq_true_eq, strcasecmp_eq] at this
    exact absurd hn this
  | some e' =>
    have h1 := List.find?_some hf
    have h2 := List.mem_of_find?_eq_some hf
    simp only [decide_eq_true_eq, strcasecmp_eq] at h1
    exact ⟨e', rfl, by rw [h e' (by simpa using h2) h1]⟩

theorem alias_plain {n : List Byte} (h : Plain n) : mapToAlias n = n :=
  (mapToAlias_go n aliases aliases_sorted).2 h

theorem predefined_plain : ∀ q ∈ predefined, ∀ p ∈ aliases, ¬ SameName p.1 q := by
  decide +kernel

theorem primed_names : primed.map (·.1) = predefined := by decide +kernel

theorem primed_different : ∀ p ∈ primed, ∀ q ∈ primed, SameName p.1 q.1 → p = q := by
  decide +kernel

theorem alias_predefined {q n : List Byte} (hq : q ∈ predefined) (h : SameName q n) :
    mapToAlias n = n :=
  alias_plain fun p hp h' => predefined_plain q hq p hp (SameName.trans h' (SameName.symm h))

theorem find_primed {q n : List Byte} {s : Comp.Sym} (hq : (q, s) ∈ primed) (h : SameName q n) :
    find primed n 0 = some s :=
  find_one hq h fun e' he' h' => primed_different _ he' _ hq (SameName.trans h' (SameName.symm h))

theorem mem_predefined {q : List Byte} {s : Comp.Sym} (hq : (q, s) ∈ primed) : q ∈ predefined := by
  rw [← primed_names]; exact List.mem_map.2 ⟨_, hq, rfl⟩

/-! ### What names mean in a scope -/

/-- The names of the scope are free to be declared. -/
def AllNew (sc : Scope) : Prop := ∀ e ∈ sc, New e.1

theorem AllNew.append {a b : Scope} (ha : AllNew a) (hb : AllNew b) : AllNew (a ++ b) := by
  intro e he
  rcases List.mem_append.1 he with h | h
  · exact ha e h
  · exact hb e h

theorem look_primed {sc : Scope} (hl : AllNew sc) {q n : List Byte} {s : Comp.Sym}
    (hq : (q, s) ∈ primed) (h : SameName q n) :
    find (table sc) (mapToAlias n) 0 = some s := by
  rw [alias_predefined (mem_predefined hq) h, table, find_append, find_primed hq h, find_none]
  · rfl
  · intro e he h'
    obtain ⟨e0, he0, rfl⟩ := List.mem_map.1 he
    exact (hl e0 he0).2 q (mem_predefined hq) (SameName.trans h (SameName.symm h'))

/-- The name can be declared: it is not found from `st` on. -/
def Fresh (sc : Scope) (st : Nat) (n : List Byte) : Prop :=
  New n ∧ ∃ a b, sc = a ++ b ∧ (∀ e ∈ b, ¬ SameName e.1 n) ∧ (st = (table a).length ∨ st = 0 ∧ a = [])

theorem look_fresh {sc : Scope} {st : Nat} {n : List Byte} (h : Fresh sc st n) :
    find (table sc) (mapToAlias n) st = none := by
  obtain ⟨hn, a, b, rfl, hb, hs⟩ := h
  have h1 : find (b.map fun e => (e.1, e.2.sym)) n 0 = none := by
    apply find_none
    intro e he
    obtain ⟨e0, he0, rfl⟩ := List.mem_map.1 he
    exact hb e0 he0
  rw [alias_plain hn.1, table_append]
  rcases hs with rfl | ⟨rfl, rfl⟩
  · rw [find_drop, h1]
  · rw [find_append, h1, find_none]
    · rfl
    · intro e he
      simp only [table, List.map_nil, List.append_nil] at he
      exact hn.2 e.1 (mem_predefined (s := e.2) he)

theorem look_means {sc : Scope} (hl : AllNew sc) {n : List Byte} {e : Ent} (h : Means sc n e) :
    find (table sc) (mapToAlias n) 0 = some e.sym := by
  obtain ⟨outer, m, inner, rfl, hm, hi⟩ := h
  have hp : Plain n := fun p hp h' => (hl (m, e) (by simp)).1 p hp (SameName.trans h' (SameName.symm hm))
  rw [alias_plain hp, show outer ++ (m, e) :: inner = (outer ++ [(m, e)]) ++ inner by simp, table_append,
    find_append, table_append, find_append]
  rw [find_none (tab := inner.map _), find_one (tab := List.map _ [(m, e)]) (e := (m, e.sym)) (by simp) hm]
  · rfl
  · intro e' he' _; simpa using he'
  · intro e' he'
    obtain ⟨e0, he0, rfl⟩ := List.mem_map.1 he'
    exact hi e0 he0

theorem input_primed : (inputName, .file 0) ∈ primed := by decide +kernel
theorem output_primed : (outputName, .file 2) ∈ primed := by decide +kernel

theorem spells_tok {sc : Scope} (hl : AllNew sc) {x : Lx} {t : Tk} (h : Spells sc x t) :
    x.tok (table sc) 0 = t := by
  cases h with
  | var hm => simp only [Lx.tok, look_means hl hm]; rfl
  | arr hm => simp only [Lx.tok, look_means hl hm]; rfl
  | proc hm => simp only [Lx.tok, look_means hl hm]; rfl
  | const hm => simp only [Lx.tok, look_means hl hm]; rfl
  | input hs => simp only [Lx.tok, look_primed hl input_primed hs]; rfl
  | true hs =>
    simp only [Lx.tok, look_primed hl (q := trueName) (s := .const (.bool 0xffffffff#32))
      (by decide +kernel) hs]
    rfl
  | false hs =>
    simp only [Lx.tok, look_primed hl (q := falseName) (s := .const (.bool 0#32))
      (by decide +kernel) hs]
    rfl
  | maxint hs =>
    simp only [Lx.tok, look_primed hl (q := maxintName) (s := .const (.int 32767#32))
      (by decide +kernel) hs]
    rfl
  | output hs =>
    simp only [Lx.tok, look_primed hl output_primed hs]
    rfl
  | other => rfl

theorem body_toks {sc : Scope} (hl : AllNew sc) {body : List Lx} {st : List Tk}
    (h : Pointwise (Spells sc) body st) : body.map (Lx.tok (table sc) 0) = st := by
  apply List.ext_getElem?
  intro j
  rw [List.getElem?_map]
  have hlen := h.1
  cases hx : body[j]? with
  | none =>
    rw [List.getElem?_eq_none_iff] at hx
    rw [List.getElem?_eq_none (by omega)]; rfl
  | some x =>
    have hj := (List.getElem?_eq_some_iff.1 hx).1
    obtain ⟨y, hy⟩ : ∃ y, st[j]? = some y := ⟨_, List.getElem?_eq_getElem (by omega)⟩
    rw [hy]
    exact congrArg some (spells_tok hl (h.2 j x y hx hy))

/-! ### Places -/

theorem placed_append (a b : List (List Byte × Shape)) (lev d : Nat) :
    placed lev d (a ++ b) = placed lev d a ++ placed lev (placedEnd d a) b := by
  induction a generalizing d with
  | nil => rfl
  | cons e a ih => obtain ⟨n, t⟩ := e; simp only [List.cons_append, placed, placedEnd, ih]

theorem placedEnd_append (a b : List (List Byte × Shape)) (d : Nat) :
    placedEnd d (a ++ b) = placedEnd (placedEnd d a) b := by
  induction a generalizing d with
  | nil => rfl
  | cons e a ih => obtain ⟨n, t⟩ := e; simp only [List.cons_append, placedEnd, ih]

theorem placed_names (a : List (List Byte × Shape)) (lev d : Nat) :
    (placed lev d a).map (·.1) = a.map (·.1) := by
  induction a generalizing d with
  | nil => rfl
  | cons e a ih => obtain ⟨n, t⟩ := e; simp only [placed, List.map_cons, ih]

theorem placedEnd_mono (a : List (List Byte × Shape)) (d : Nat) : d ≤ placedEnd d a := by
  induction a generalizing d with
  | nil => exact Nat.le_refl _
  | cons e a ih =>
    obtain ⟨n, t⟩ := e
    simp only [placedEnd]
    refine Nat.le_trans ?_ (ih _)
    split <;> omega

theorem mem_placed {a : List (List Byte × Shape)} {n : List Byte} {t : Shape} (h : (n, t) ∈ a) :
    ∀ lev d, ∃ o, (n, t.ent lev o) ∈ placed lev d a ∧ d ≤ o ∧ o + t.bytes ≤ placedEnd d a ∧ (t.bytes ≠ 1 → o % 2 = 0) := by
  induction a with
  | nil => cases h
  | cons e a ih =>
    intro lev d
    obtain ⟨m, u⟩ := e
    rcases List.mem_cons.1 h with h | h
    · injection h with h1 h2; subst h1; subst h2
      refine ⟨_, List.mem_cons_self .., ?_, placedEnd_mono a _, ?_⟩
      · split <;> omega
      · intro h; rw [if_neg h]; omega
    · obtain ⟨x, hx, h1, h2, h3⟩ := ih h lev ((if u.bytes = 1 then d else (d + 1) / 2 * 2) + u.bytes)
      refine ⟨x, List.mem_cons_of_mem _ hx, ?_, h2, h3⟩
      revert h1; split <;> (intro h1; omega)

/-- Everything that is placed is between the start and the end. -/
theorem placed_ent (a : List (List Byte × Shape)) (lev d : Nat) {e : List Byte × Ent}
    (h : e ∈ placed lev d a) : ∃ n t o, (n, t) ∈ a ∧ e = (n, t.ent lev o) ∧ d ≤ o ∧ o + t.bytes ≤ placedEnd d a ∧
      (t.bytes ≠ 1 → o % 2 = 0) := by
  induction a generalizing d with
  | nil => cases h
  | cons f a ih =>
    obtain ⟨n, t⟩ := f
    simp only [placed, List.mem_cons] at h
    rcases h with rfl | h
    · refine ⟨n, t, _, List.mem_cons_self .., rfl, ?_, placedEnd_mono a _, ?_⟩
      · split <;> omega
      · intro h; rw [if_neg h]; omega
    · obtain ⟨m, u, o, h0, h1, h2, h3, h4⟩ := ih _ h
      refine ⟨m, u, o, List.mem_cons_of_mem _ h0, h1, ?_, h3, h4⟩
      revert h2; split <;> (intro h2; omega)

/-- The variables are in the bytes of what is declared. -/
theorem ent_vars {t : Shape} {lev o : Nat} {x : Variable} (h : x ∈ (t.ent lev o).vars) :
    x.level = lev ∧ (o : Int) ≤ x.off ∧ x.off + (x.ty.size : Int) ≤ o + t.bytes ∧
      (x.ty.size = 2 → t.bytes ≠ 1 ∧ (o % 2 = 0 → x.off % 2 = 0)) := by
  obtain ⟨ty, range⟩ := t
  cases range with
  | none =>
    simp only [Shape.ent, Ent.vars, List.mem_singleton] at h
    subst h
    refine ⟨rfl, Int.le_refl _, Int.le_refl _, fun h2 => ⟨?_, fun h => ?_⟩⟩
    · show ty.size ≠ 1
      have h2 : ty.size = 2 := h2
      omega
    · show (o : Int) % 2 = 0
      omega
  | some r =>
    obtain ⟨lo, hi⟩ := r
    simp only [Shape.ent, Ent.vars, Arr.elems, List.mem_map, List.mem_range] at h
    obtain ⟨k, hk, rfl⟩ := h
    have e : ((⟨ty, lev, o, lo, hi⟩ : Arr).elem (lo + k)) = ⟨ty, lev, ((o + k * ty.size : Nat) : Int)⟩ := by
      simp only [Arr.elem, Variable.mk.injEq, true_and]
      rw [show ((lo + k : Nat) : Int) - (lo : Int) = (k : Int) by omega]
      simp
    rw [e]
    have hm : (k + 1) * ty.size ≤ (hi + 1 - lo) * ty.size := Nat.mul_le_mul_right _ hk
    rw [Nat.succ_mul] at hm
    refine ⟨rfl, ?_, ?_, fun h2 => ⟨?_, fun h => ?_⟩⟩
    · show (o : Int) ≤ ((o + k * ty.size : Nat) : Int)
      omega
    · show ((o + k * ty.size : Nat) : Int) + (ty.size : Int) ≤ o + (((hi + 1 - lo) * ty.size : Nat) : Int)
      omega
    · show (hi + 1 - lo) * ty.size ≠ 1
      have h2 : ty.size = 2 := h2
      rw [h2]; omega
    · show ((o + k * ty.size : Nat) : Int) % 2 = 0
      have h2 : ty.size = 2 := h2
      rw [h2]; omega

/-- Different variables of what is declared have different bytes. -/
theorem ent_apart {t : Shape} {lev o : Nat} {x y : Variable} (hx : x ∈ (t.ent lev o).vars)
    (hy : y ∈ (t.ent lev o).vars) : x = y ∨ x.off + (x.ty.size : Int) ≤ y.off ∨ y.off + (y.ty.size : Int) ≤ x.off := by
  obtain ⟨ty, range⟩ := t
  cases range with
  | none =>
    simp only [Shape.ent, Ent.vars, List.mem_singleton] at hx hy
    exact .inl (hx.trans hy.symm)
  | some r =>
    obtain ⟨lo, hi⟩ := r
    simp only [Shape.ent, Ent.vars, Arr.elems, List.mem_map, List.mem_range] at hx hy
    obtain ⟨j, hj, rfl⟩ := hx
    obtain ⟨k, hk, rfl⟩ := hy
    have e : ∀ k, ((⟨ty, lev, o, lo, hi⟩ : Arr).elem (lo + k)) = ⟨ty, lev, ((o + k * ty.size : Nat) : Int)⟩ := by
      intro k
      simp only [Arr.elem, Variable.mk.injEq, true_and]
      rw [show ((lo + k : Nat) : Int) - (lo : Int) = (k : Int) by omega]
      simp
    rw [e, e]
    rcases Nat.lt_trichotomy j k with h | h | h
    · have := Nat.mul_le_mul_right ty.size (show j + 1 ≤ k from h)
      rw [Nat.succ_mul] at this
      exact .inr (.inl (show ((o + j * ty.size : Nat) : Int) + (ty.size : Int) ≤ ((o + k * ty.size : Nat) : Int) by omega))
    · exact .inl (by rw [h])
    · have := Nat.mul_le_mul_right ty.size (show k + 1 ≤ j from h)
      rw [Nat.succ_mul] at this
      exact .inr (.inr (show ((o + k * ty.size : Nat) : Int) + (ty.size : Int) ≤ ((o + j * ty.size : Nat) : Int) by omega))

/-- Every variable is between the start and the end. -/
theorem placed_inside (a : List (List Byte × Shape)) (lev d : Nat) {x : Variable}
    (h : Scope.vars (placed lev d a) x) : x.level = lev ∧ (d : Int) ≤ x.off ∧
      x.off + (x.ty.size : Int) ≤ placedEnd d a ∧ (x.ty.size = 2 → x.off % 2 = 0) := by
  obtain ⟨e, he, hx⟩ := h
  obtain ⟨n, t, o, -, rfl, h1, h2, h3⟩ := placed_ent a lev d he
  obtain ⟨g1, g2, g3, g4⟩ := ent_vars hx
  exact ⟨g1, by omega, by omega, fun h => (g4 h).2 (h3 (g4 h).1)⟩

/-- What is placed does not overlap. -/
theorem placed_pairs (a : List (List Byte × Shape)) (lev d : Nat) :
    (placed lev d a).Pairwise fun e f => ∀ n t o, e = (n, Shape.ent t lev o) → ∀ m u p, f = (m, Shape.ent u lev p) →
      o + t.bytes ≤ p := by
  induction a generalizing d with
  | nil => exact .nil
  | cons f a ih =>
    obtain ⟨n, t⟩ := f
    simp only [placed, List.pairwise_cons]
    refine ⟨fun e he => ?_, ih _⟩
    obtain ⟨m, u, p, -, rfl, h1, -, -⟩ := placed_ent _ _ _ he
    intro n' t' o' e1 m' u' p' e2
    have i1 : ∀ {t t' : Shape} {o o' : Nat}, t.ent lev o = t'.ent lev o' → o = o' ∧ t.bytes = t'.bytes := by
      intro t t' o o' h
      obtain ⟨a, r⟩ := t
      obtain ⟨a', r'⟩ := t'
      cases r <;> cases r' <;> simp [Shape.ent] at h
      · exact ⟨by omega, by simp [Shape.bytes, h.1]⟩
      · obtain ⟨h1, h2, h3, h4⟩ := h
        exact ⟨h2, by simp [Shape.bytes, h1, h3, h4]⟩
    injection e1 with _ e1
    injection e2 with _ e2
    have := i1 e1
    have := i1 e2
    omega

theorem pairwise_cases {α : Type} {R : α → α → Prop} {l : List α} (h : l.Pairwise R) {a b : α}
    (ha : a ∈ l) (hb : b ∈ l) : a = b ∨ R a b ∨ R b a := by
  rw [List.pairwise_iff_getElem] at h
  obtain ⟨i, hi, rfl⟩ := List.mem_iff_getElem.1 ha
  obtain ⟨j, hj, rfl⟩ := List.mem_iff_getElem.1 hb
  rcases Nat.lt_trichotomy i j with hij | hij | hij
  · exact .inr (.inl (h i j hi hj hij))
  · subst hij; exact .inl rfl
  · exact .inr (.inr (h j i hj hi hij))

/-- Variables do not overlap. -/
theorem placed_apart (a : List (List Byte × Shape)) (lev d : Nat) {x y : Variable}
    (hx : Scope.vars (placed lev d a) x) (hy : Scope.vars (placed lev d a) y) :
    x = y ∨ x.off + (x.ty.size : Int) ≤ y.off ∨ y.off + (y.ty.size : Int) ≤ x.off := by
  obtain ⟨e, he, hx⟩ := hx
  obtain ⟨f, hf, hy⟩ := hy
  obtain ⟨n, t, o, -, rfl, -, -, -⟩ := placed_ent a lev d he
  obtain ⟨m, u, p, -, rfl, -, -, -⟩ := placed_ent a lev d hf
  have hx' := ent_vars hx
  have hy' := ent_vars hy
  rcases pairwise_cases (placed_pairs a lev d) he hf with h | h | h
  · injection h with _ h
    rw [← h] at hy
    exact ent_apart hx hy
  · have := h n t o rfl m u p rfl
    exact .inr (.inl (by omega))
  · have := h m u p rfl n t o rfl
    exact .inr (.inr (by omega))

/-! ### Reading declarations -/

/-- The names of the scope have been declared, and the variables have `ds` bytes. -/
def reading (sc : Scope) (ds : Nat) (rest : List Lx) (tok : Tk) (ptr : Option Comp.Sym) (last : Lx) :
    DS := ⟨rest, tok, ptr, last, table sc, ds, 0⟩

theorem get_tk (sc : Scope) (ds : Nat) (t : Tk) (r : List Lx) (tok ptr last st) :
    (reading sc ds (.tk t :: r) tok ptr last).get st = reading sc ds r t none (.tk t) := rfl

theorem get_var (sc : Scope) (ds : Nat) (r : List Lx) (tok ptr last st) :
    (reading sc ds (.var_ :: r) tok ptr last).get st = reading sc ds r (.other 0xa9) none .var_ := rfl

theorem get_any (sc : Scope) (ds : Nat) (x : Lx) (r : List Lx) (tok ptr last st) :
    (reading sc ds (x :: r) tok ptr last).get st = reading sc ds r (x.tok (table sc) st) (x.ptr (table sc) st) x := rfl

theorem get_fresh {sc : Scope} {n : List Byte} {st : Nat} (h : Fresh sc st n) (ds : Nat) (r : List Lx)
    (tok ptr last) :
    (reading sc ds (.name n :: r) tok ptr last).get st = reading sc ds r .ident none (.name n) := by
  simp only [DS.get, reading, List.headD_cons, List.tail_cons, Lx.tok, Lx.ptr, look_fresh h]

theorem get_primed {sc : Scope} (h : AllNew sc) {q n : List Byte}
    {s : Comp.Sym} (hq : (q, s) ∈ primed) (hn : SameName q n) (ds : Nat) (r : List Lx) (tok ptr last) :
    (reading sc ds (.name n :: r) tok ptr last).get 0 = reading sc ds r s.tok (some s) (.name n) := by
  have hl := look_primed h hq hn
  simp only [DS.get, reading, List.headD_cons, List.tail_cons, Lx.tok, Lx.ptr, hl]

theorem type_primed (t : Ty) : (t.name, .type (some t.kind) t.size) ∈ primed := by
  cases t with
  | num t => cases t <;> decide +kernel
  | _ => decide +kernel

theorem typeDenoter_name {sc : Scope} (h : AllNew sc) {t : Ty}
    {w : List Byte} (hw : SameName t.name w) (n ds : Nat) (r : List Lx) (tok ptr last) :
    typeDenoter n ((reading sc ds (.name w :: .tk .semi :: r) tok ptr last).get 0) =
      .ok (some (⟨t.kind, t.size, none⟩, reading sc ds r .semi none (.tk .semi))) := by
  rw [get_primed h (type_primed t) hw]
  unfold typeDenoter
  simp only [reading]
  rfl

theorem ty_size (t : Ty) : t.size = 1 ∨ t.size = 2 := by
  cases t with
  | num t => cases t <;> decide
  | _ => decide

theorem indexType_ok (sc : Scope) (ds : Nat) (r : List Lx) {lo hi : Nat} (h1 : lo ≤ hi) (h2 : hi ≤ 32767) (x : Tk)
    (ptr : Option Comp.Sym) (last : Lx) {b : Lx} (hb : b.tok (table sc) 0 = .int (BitVec.ofNat 32 hi)) :
    indexType (reading sc ds (.tk (.other 0x0b) :: b :: .tk x :: r)
        (.int (BitVec.ofNat 32 lo)) ptr last) =
      some (some (lo, hi), reading sc ds r x none (.tk x)) := by
  have e1 : (BitVec.ofNat 32 lo).toNat = lo := by rw [BitVec.toNat_ofNat]; omega
  have e2 : (BitVec.ofNat 32 hi).toNat = hi := by rw [BitVec.toNat_ofNat]; omega
  have key : ∀ t, t = Tk.int (BitVec.ofNat 32 hi) → (match t with
      | .int hi =>
        if 2147483648 ≤ hi.toNat then none
        else if hi.toNat < (BitVec.ofNat 32 lo).toNat then
          some (none, (reading sc ds (.tk x :: r) (b.tok (table sc) 0) (b.ptr (table sc) 0) b).err)
        else some (some ((BitVec.ofNat 32 lo).toNat, hi.toNat),
          (reading sc ds (.tk x :: r) (b.tok (table sc) 0) (b.ptr (table sc) 0) b).get 0)
      | _ => some (none, (reading sc ds (.tk x :: r) (b.tok (table sc) 0) (b.ptr (table sc) 0) b).err)) =
      some (some (lo, hi), reading sc ds r x none (.tk x)) := by
    rintro _ rfl
    simp only []
    rw [e1, e2, if_neg (by omega), if_neg (by omega)]
    rfl
  exact key _ hb

theorem arrayType_ok {sc : Scope} (h : AllNew sc) {t : Ty} {w : List Byte} (hw : SameName t.name w)
    {lo hi : Nat} (h1 : lo ≤ hi) (h2 : hi ≤ 32767) {a b : Lx} (ha : a.tok (table sc) 0 = .int (BitVec.ofNat 32 lo))
    (hb : b.tok (table sc) 0 = .int (BitVec.ofNat 32 hi)) (n ds : Nat) (r : List Lx) (tok ptr last) :
    arrayType (n + 1) (reading sc ds (.tk .lbracket :: a :: .tk (.other 0x0b) ::
        b :: .tk .rbracket :: .tk .of_ :: .name w :: .tk .semi :: r) tok ptr last) =
      some (⟨t.kind, (hi + 1 - lo) * t.size, some [(lo, t.size)]⟩, reading sc ds r .semi none (.tk .semi)) := by
  have hi1 : indexTypes (n + 1) (reading sc ds (a :: .tk (.other 0x0b) ::
        b :: .tk .rbracket :: .tk .of_ :: .name w :: .tk .semi :: r) .lbracket none (.tk .lbracket)) =
      some ([(lo, hi)], reading sc ds (.tk .of_ :: .name w :: .tk .semi :: r) .rbracket none (.tk .rbracket)) := by
    rw [indexTypes, get_any, ha, indexType_ok sc ds _ h1 h2 _ _ _ hb]
    rfl
  have hg := get_primed h (type_primed t) hw ds (.tk .semi :: r) .of_ none (.tk .of_)
  unfold arrayType
  rw [get_tk]
  simp only [Option.bind_eq_bind]
  rw [if_pos (show (reading sc ds _ Tk.lbracket none (.tk .lbracket)).tok = .lbracket from rfl), hi1]
  have e1 : DS.expect (reading sc ds (.tk .of_ :: .name w :: .tk .semi :: r) .rbracket none (.tk .rbracket)) .rbracket =
      reading sc ds (.name w :: .tk .semi :: r) .of_ none (.tk .of_) := rfl
  have e2 : DS.expect (reading sc ds (.name w :: .tk .semi :: r) .of_ none (.tk .of_)) .of_ =
      reading sc ds (.tk .semi :: r) sTYPE (some (.type (some t.kind) t.size)) (.name w) := hg
  have hs := ty_size t
  have e3 : indexUnits t.size [(lo, hi)] = ([(lo, t.size)], (hi + 1 - lo) * t.size) := by
    have : t.size * ((hi - lo + 1) % 65536) % 4294967296 = (hi + 1 - lo) * t.size := by
      rw [Nat.mod_eq_of_lt (show hi - lo + 1 < 65536 by omega), show hi - lo + 1 = hi + 1 - lo by omega, Nat.mul_comm]
      apply Nat.mod_eq_of_lt
      rcases hs with hs | hs <;> rw [hs] <;> omega
    simp only [indexUnits, this]
  simp only [Option.bind_some, e1, e2]
  rw [if_neg (by simp)]
  simp only [reading, e3]
  rfl

/-- The type as the compiler knows it. -/
def Shape.den (s : Shape) : Denoted :=
  match s.range with
  | none => ⟨s.ty.kind, s.ty.size, none⟩
  | some (lo, _) => ⟨s.ty.kind, s.bytes, some [(lo, s.ty.size)]⟩

theorem den_size (s : Shape) : s.den.size = s.bytes := by
  obtain ⟨ty, r⟩ := s
  cases r <;> rfl

theorem den_sym (s : Shape) (lev off : Nat) : s.den.sym lev off = (s.ent lev off).sym := by
  obtain ⟨ty, r⟩ := s
  cases r <;> rfl

theorem boundToks_ok {sc : Scope} (h : AllNew sc) {g : Group} (hb : g.Bounds sc) {r : Nat × Nat} (hr : g.range = some r) :
    (g.boundToks r).1.tok (table sc) 0 = .int (BitVec.ofNat 32 r.1) ∧
      (g.boundToks r).2.tok (table sc) 0 = .int (BitVec.ofNat 32 r.2) := by
  unfold Group.boundToks
  cases hgb : g.bounds with
  | none => exact ⟨rfl, rfl⟩
  | some b =>
    obtain ⟨h1, h2⟩ := hb r hr b hgb
    exact ⟨spells_tok h h1, spells_tok h h2⟩

theorem typeDenoter_ok {sc : Scope} (h : AllNew sc) {g : Group} (hg : g.Right) (hb : g.Bounds sc) (n ds : Nat) (r : List Lx)
    (tok ptr last) :
    typeDenoter (n + 1) ((reading sc ds (g.typeToks ++ .tk .semi :: r) tok ptr last).get 0) =
      .ok (some (g.shape.den, reading sc ds r .semi none (.tk .semi))) := by
  have hbt := @boundToks_ok sc h g hb
  obtain ⟨first, more, w, t, range, bounds⟩ := g
  obtain ⟨hw, hr⟩ := hg
  cases range with
  | none => exact typeDenoter_name h hw (n + 1) ds r tok ptr last
  | some b =>
    obtain ⟨lo, hi⟩ := b
    obtain ⟨h1, h2⟩ := hr _ rfl
    obtain ⟨b1, b2⟩ := hbt (r := (lo, hi)) rfl
    have := arrayType_ok h hw h1 h2 b1 b2 n ds r (.other 0x81) none (.tk (.other 0x81))
    simp only [Group.typeToks, List.cons_append, List.nil_append, get_tk]
    unfold typeDenoter
    show Res.ok (match arrayType (n + 1) _ with
      | some (t, d) => if d.tok = Tk.eq then none else some (t, d)
      | none => none) = _
    rw [this]
    rfl

/-! ### Variables -/

/-- The variables of `o` have been declared. -/
def declared (lev f : Nat) (sc : Scope) (o : List (List Byte × Shape)) (rest : List Lx) (tok : Tk)
    (ptr : Option Comp.Sym) (last : Lx) : DS :=
  reading (sc ++ placed lev f o) (placedEnd f o) rest tok ptr last

theorem mem_ents {lev f : Nat} {o : List (List Byte × Shape)} {e : List Byte × Ent}
    (h : e ∈ placed lev f o) : e.1 ∈ o.map (·.1) := by
  rw [← placed_names o lev f]
  exact List.mem_map.2 ⟨e, h, rfl⟩

theorem allNew_placed {o : List (List Byte × Shape)} (h : ∀ m ∈ o.map (·.1), New m) (lev d : Nat) :
    AllNew (placed lev d o) := fun _ he => h _ (mem_ents he)

/-- The name is not declared from `st` on. -/
def Apart (sc : Scope) (st : Nat) (n : List Byte) : Prop :=
  (∃ a b, sc = a ++ b ∧ st = (table a).length ∧ ∀ e ∈ b, ¬ SameName e.1 n) ∨ st = 0 ∧ ∀ e ∈ sc, ¬ SameName e.1 n

/-- A name that is not among the variables, to be declared from the level on or at all. -/
theorem fresh_placed {lev f : Nat} {sc : Scope} {o : List (List Byte × Shape)} {n : List Byte} (h : New n)
    (hd : ∀ m ∈ o.map (·.1), ¬ SameName m n) {st : Nat} (hs : Apart sc st n) :
    Fresh (sc ++ placed lev f o) st n := by
  refine ⟨h, ?_⟩
  rcases hs with ⟨a, b, rfl, hs, hb⟩ | ⟨hs, hsc⟩
  · refine ⟨a, b ++ placed lev f o, List.append_assoc .., fun e he => ?_, .inl hs⟩
    rcases List.mem_append.1 he with he | he
    · exact hb e he
    · exact hd _ (mem_ents he)
  · refine ⟨[], _, rfl, fun e he => ?_, .inr ⟨hs, rfl⟩⟩
    rcases List.mem_append.1 he with he | he
    · exact hsc e he
    · exact hd _ (mem_ents he)

theorem right_bytes {g : Group} (h : g.Right) : 0 < g.shape.bytes := by
  obtain ⟨first, more, w, t, range, bounds⟩ := g
  have hs := ty_size t
  cases range with
  | none => show 0 < t.size; omega
  | some b =>
    obtain ⟨h1, h2⟩ := h.2 _ rfl
    exact Nat.mul_pos (show 0 < b.2 + 1 - b.1 by omega) (show 0 < t.size by omega)

theorem allocate_ok (lev f : Nat) (sc : Scope) (o : List (List Byte × Shape)) (n : List Byte) (t : Shape)
    (ht : 0 < t.bytes) (hs : placedEnd f (o ++ [(n, t)]) ≤ 65535) (rest tok ptr last) :
    allocate lev n t.den (declared lev f sc o rest tok ptr last) =
      declared lev f sc (o ++ [(n, t)]) rest tok ptr last := by
  have hlt : (if t.bytes = 1 then placedEnd f o else alignUp (placedEnd f o)) < 65536 := by
    rw [placedEnd_append] at hs
    simp only [placedEnd] at hs
    unfold alignUp
    omega
  simp only [allocate, declared, reading, placed_append, placedEnd_append, placed, placedEnd, table,
    List.map_append, List.map_cons, List.map_nil, List.append_assoc, den_size]
  rw [Nat.mod_eq_of_lt hlt, den_sym]
  rfl

/-- The declaration of a name before another one. -/
def declareNext (lev : Nat) (name : List Byte) (r : Option (Option Denoted × DS)) :
    Res (Option (Option Denoted × DS)) :=
  match r with
  | some (some t, d) => .ok (some (some t, allocate lev name t d))
  | some (none, d) => .ok (some (none, d))
  | none => .ok none

theorem declareVar_comma {lev lv n : Nat} {d d1 d2 : DS} (h1 : d.get 0 = d1) (hc : d1.tok = .comma)
    (h2 : d1.get lv = d2) (hi : d2.tok = .ident) :
    declareVar lev lv (n + 1) d = (declareVar lev lv n d2).bind (declareNext lev d.last.string) := by
  subst h1; subst h2
  rw [declareVar]
  refine (if_pos hc).trans ((if_pos hi).trans ?_)
  rfl

theorem declareVar_colon {lev lv n : Nat} {d d1 d2 : DS} {t : Denoted} (h1 : d.get 0 = d1)
    (hc : d1.tok ≠ .comma) (h2 : typeDenoter n (d1.expect .colon) = .ok (some (t, d2))) :
    declareVar lev lv (n + 1) d = .ok (some (some t, allocate lev d.last.string t d2)) := by
  subst h1
  rw [declareVar]
  refine (if_neg hc).trans ?_
  rw [h2]
  rfl

theorem declareVar_ok {lev f : Nat} {sc : Scope} (hsc : AllNew sc) {g : Group}
    (hw : g.Right) (r : List Lx) (lv : Nat)
    (o : List (List Byte × Shape)) (ho : ∀ m ∈ o.map (·.1), New m)
    (hbd : g.Bounds (sc ++ placed lev f o)) (more : List (List Byte)) :
    ∀ (first : List Byte) (tok : Tk) (ptr : Option Comp.Sym), (∀ m ∈ more, Apart sc lv m) →
    (∀ m ∈ first :: more, New m) → (∀ m ∈ more, ∀ m' ∈ o.map (·.1), ¬ SameName m' m) →
    placedEnd f (o ++ (first :: more).reverse.map fun n => (n, g.shape)) ≤ 65535 →
    ∀ n, more.length + 2 ≤ n →
    declareVar lev lv n (declared lev f sc o (commaNames more ++ .tk .colon :: (g.typeToks ++ .tk .semi :: r))
        tok ptr (.name first)) =
      .ok (some (some g.shape.den,
        declared lev f sc (o ++ (first :: more).reverse.map fun n => (n, g.shape)) r .semi none (.tk .semi))) := by
  induction more with
  | nil =>
    intro first tok ptr hap hf hd hs n hn
    obtain ⟨n, rfl⟩ : ∃ k, n = k + 1 + 1 := ⟨n - 2, by simp at hn; omega⟩
    have h2 := typeDenoter_ok (hsc.append (allNew_placed ho lev f)) hw hbd n (placedEnd f o) r .colon none (.tk .colon)
    rw [declareVar_colon (d1 := declared lev f sc o (g.typeToks ++ .tk .semi :: r) .colon none (.tk .colon)) rfl
      (by show Tk.colon ≠ Tk.comma; decide) h2]
    exact congrArg (fun z => Res.ok (some (some g.shape.den, z)))
      (allocate_ok lev f sc o first g.shape (right_bytes hw) hs r .semi none (.tk .semi))
  | cons m more ih =>
    intro first tok ptr hap hf hd hs n hn
    obtain ⟨n, rfl⟩ : ∃ k, n = k + 1 := ⟨n - 1, by omega⟩
    have hs' : placedEnd f ((o ++ (m :: more).reverse.map fun n => (n, g.shape)) ++ [(first, g.shape)]) ≤ 65535 := by
      simpa [List.append_assoc] using hs
    simp only [commaNames, List.cons_append]
    rw [show declared lev f sc o (.tk .comma :: .name m :: (commaNames more ++ .tk .colon :: (g.typeToks ++ .tk .semi :: r))) tok ptr
      (.name first) = reading (sc ++ placed lev f o) (placedEnd f o) _ tok ptr (.name first) from rfl]
    rw [declareVar_comma (get_tk ..) (by rfl)
      (get_fresh (fresh_placed (hf m (by simp)) (hd m (by simp)) (hap m (by simp))) _ _ _ _ _) (by rfl)]
    have h3 := ih m .ident none (fun k hk => hap k (List.mem_cons_of_mem _ hk)) (fun k hk => hf k (List.mem_cons_of_mem _ hk))
      (fun k hk => hd k (by simp [hk])) (by
        refine Nat.le_trans ?_ hs'
        rw [placedEnd_append _ [(first, g.shape)]]
        exact placedEnd_mono _ _) n (by simp at hn; omega)
    unfold declared at h3
    rw [h3]
    have := allocate_ok lev f sc _ first g.shape (right_bytes hw) hs' r .semi none (.tk .semi)
    refine Eq.trans (congrArg (fun z => Res.ok (some (some g.shape.den, z))) this) ?_
    simp [List.append_assoc]

theorem mem_names {gs : List Group} {g : Group} {n : List Byte} (hg : g ∈ gs) (hn : n ∈ g.names) :
    n ∈ (orderOf gs).map (·.1) := by
  rw [List.mem_map]
  exact ⟨(n, g.shape), List.mem_flatMap.2 ⟨g, hg, List.mem_map.2 ⟨n, by simpa using hn, rfl⟩⟩, rfl⟩

theorem variableGroup_end {lev lv n : Nat} {d : DS} (h : d.tok ≠ .ident) :
    variableGroup lev lv (n + 1) d = .ok (some d) := by
  rw [variableGroup]; exact if_neg h

theorem variableGroup_next {lev lv n : Nat} {d d1 d2 : DS} {x : Option Denoted} (h : d.tok = .ident)
    (h1 : declareVar lev lv n d = .ok (some (x, d1))) (h2 : d1.tok = .semi) (h3 : d1.get 0 = d2) :
    variableGroup lev lv (n + 1) d = variableGroup lev lv n d2 := by
  subst h3
  rw [variableGroup]
  refine (if_pos h).trans ?_
  rw [h1]
  exact if_pos h2

/-- What a bound means does not change when variables are declared. -/
theorem bounds_prefix {lev f : Nat} {sc : Scope} {a b : List (List Byte × Shape)} {g : Group}
    (h : g.Bounds (sc ++ placed lev f (a ++ b))) : g.Bounds (sc ++ placed lev f a) := by
  have key : ∀ {x : Lx} {v : BitVec 32}, Spells (sc ++ placed lev f (a ++ b)) x (.int v) →
      Spells (sc ++ placed lev f a) x (.int v) := by
    intro x v hx
    generalize ht : Tk.int v = t at hx
    cases hx with
    | var => cases ht
    | arr => cases ht
    | proc => cases ht
    | input => cases ht
    | true => cases ht
    | false => cases ht
    | output => cases ht
    | maxint h => exact .maxint h
    | other h1 h2 h3 h4 h5 => exact .other h1 h2 h3 h4 h5
    | const hm =>
      refine .const ?_
      obtain ⟨outer, m, inner, h1, h2, h3⟩ := hm
      rw [placed_append, ← List.append_assoc] at h1
      generalize hb : placed lev (placedEnd f a) b = B at h1
      have hB : ∀ e ∈ B, ∀ v, e.2 ≠ .const v := by
        intro e he v hv
        rw [← hb] at he
        obtain ⟨m, t, p, -, rfl, -⟩ := placed_ent _ _ _ he
        obtain ⟨ty, r⟩ := t
        cases r <;> cases hv
      clear hb
      generalize sc ++ placed lev f a = A at h1
      rw [List.append_eq_append_iff] at h1
      rcases h1 with ⟨c, rfl, h⟩ | ⟨c, rfl, h⟩
      · exfalso
        exact hB _ (h ▸ List.mem_append_right _ (List.mem_cons_self ..)) _ rfl
      · cases c with
        | nil =>
          exfalso
          rw [List.nil_append] at h
          exact hB _ (h ▸ List.mem_cons_self ..) _ rfl
        | cons d c =>
          injection h with h4 h5
          subst h4
          exact ⟨outer, m, c, rfl, h2, fun e he => h3 e (by rw [h5]; exact List.mem_append_left _ he)⟩
  intro r hr b' hb'
  exact ⟨key (h r hr b' hb').1, key (h r hr b' hb').2⟩

theorem variableGroup_ok {lev f : Nat} {sc : Scope} (hsc : AllNew sc) {t : Tk} (htk : t ≠ .ident)
    (r : List Lx) (lv : Nat) (gs : List Group) :
    ∀ (o : List (List Byte × Shape)) (tok : Tk) (ptr : Option Comp.Sym) (last : Lx) (st : Nat),
    (∀ g ∈ gs.head?, Apart sc st g.first) →
    (∀ g ∈ gs.tail, ∀ e ∈ sc, ¬ SameName e.1 g.first) →
    (∀ g ∈ gs, ∀ m ∈ g.more, Apart sc lv m) →
    (∀ g ∈ gs, g.Bounds (sc ++ placed lev f (o ++ orderOf gs))) →
    (∀ m ∈ (o ++ orderOf gs).map (·.1), New m) →
    ((o ++ orderOf gs).map (·.1)).Pairwise (fun n m => ¬ SameName n m) →
    (∀ g ∈ gs, g.Right) →
    placedEnd f (o ++ orderOf gs) ≤ 65535 →
    ∃ N, ∀ n, N ≤ n → variableGroup lev lv n
        ((declared lev f sc o (gs.flatMap Group.toks ++ .tk t :: r) tok ptr last).get st) =
      .ok (some (declared lev f sc (o ++ orderOf gs) r t none (.tk t))) := by
  induction gs with
  | nil =>
    intro o tok ptr last st hst hsts hap hbd hn hd ht hs
    refine ⟨1, fun n hn => ?_⟩
    obtain ⟨n, rfl⟩ : ∃ k, n = k + 1 := ⟨n - 1, by omega⟩
    simp only [List.flatMap_nil, List.nil_append, declared, get_tk, orderOf, List.append_nil]
    exact variableGroup_end htk
  | cons g gs ih =>
    intro o tok ptr last st hst hsts hap hbd hn hd ht hs
    have e : o ++ orderOf (g :: gs) =
        (o ++ (g.first :: g.more).reverse.map fun n => (n, g.shape)) ++ orderOf gs := by
      simp [orderOf, Group.names, List.append_assoc]
    have hfar : ∀ m ∈ g.names, ∀ m' ∈ o.map (·.1), ¬ SameName m' m := by
      intro m hm m' hm'
      rw [List.map_append, List.pairwise_append] at hd
      exact hd.2.2 m' hm' m (mem_names (List.mem_cons_self ..) hm)
    have hgn : ∀ m ∈ g.names, New m := by
      intro m hm
      apply hn
      rw [List.map_append]
      exact List.mem_append_right _ (mem_names (List.mem_cons_self ..) hm)
    have hon : ∀ m ∈ o.map (·.1), New m := by
      intro m hm
      apply hn
      rw [List.map_append]
      exact List.mem_append_left _ hm
    have hbg := bounds_prefix (hbd g (List.mem_cons_self ..))
    rw [e] at hn hd hs hbd ⊢
    obtain ⟨N, hN⟩ := ih _ .semi none (.tk .semi) 0 (fun g' hg' => .inr ⟨rfl, hsts g' (by
        cases gs with
        | nil => simp at hg'
        | cons a b => simp at hg'; subst hg'; simp)⟩) (fun g' hg' => hsts g' (List.mem_of_mem_tail hg'))
      (fun g' hg' => hap g' (List.mem_cons_of_mem _ hg')) (fun g' hg' => hbd g' (List.mem_cons_of_mem _ hg')) hn hd
      (fun g' hg' => ht g' (List.mem_cons_of_mem _ hg')) hs
    refine ⟨max N (g.more.length + 2) + 1, fun n hn' => ?_⟩
    obtain ⟨n, rfl⟩ : ∃ k, n = k + 1 := ⟨n - 1, by omega⟩
    rw [← hN n (by omega)]
    have hfirst : (g :: gs).flatMap Group.toks ++ .tk t :: r =
        .name g.first :: (commaNames g.more ++ .tk .colon :: (g.typeToks ++ .tk .semi ::
          (gs.flatMap Group.toks ++ .tk t :: r))) := by
      simp [Group.toks, List.append_assoc]
    have hget : (declared lev f sc o (.name g.first :: (commaNames g.more ++ .tk .colon :: (g.typeToks ++ .tk .semi ::
          (gs.flatMap Group.toks ++ .tk t :: r)))) tok ptr last).get st = declared lev f sc o _ .ident none (.name g.first) :=
      get_fresh (fresh_placed (hgn _ (List.mem_cons_self ..)) (hfar _ (List.mem_cons_self ..))
        (hst g (by simp))) _ _ _ _ _
    rw [hfirst, hget]
    refine variableGroup_next (by rfl) (declareVar_ok hsc (ht g (List.mem_cons_self ..)) _ lv o hon hbg g.more
      g.first .ident none (hap g (List.mem_cons_self ..)) hgn (fun m hm => hfar m (List.mem_cons_of_mem _ hm)) ?_ n (by omega))
      (by rfl) rfl
    refine Nat.le_trans ?_ hs
    rw [placedEnd_append _ (orderOf gs)]
    exact placedEnd_mono _ _

/-- The tokens after the declaration of variables. -/
def Goon (t : Tk) : Prop := t = .begin_ ∨ t = .other 0x9c

/-! ### Constants -/

theorem constantGroup_end {n : Nat} {d : DS} (h : d.tok ≠ .ident) : constantGroup (n + 1) d = .ok (some d) := by
  rw [constantGroup]; exact if_neg h

theorem constantGroup_next {n : Nat} {d d1 d2 : DS} (h : d.tok = .ident) (h1 : defineConst n d = .ok (some d1))
    (h2 : d1.tok = .semi) (h3 : d1.get 0 = d2) : constantGroup (n + 1) d = constantGroup n d2 := by
  subst h3
  rw [constantGroup]
  refine (if_pos h).trans ?_
  rw [h1]
  exact if_pos h2

theorem const_literal (v : Val) : Const.constToken v.constKind v.constBits = some v.literal := by
  cases v <;> rfl

theorem defineConst_ok {sc : Scope} (hsc : AllNew sc) {c : Cst} (hc : Pointwise (Spells sc) c.text c.expr.toks)
    (hv : c.expr.exact 32 = some c.value) (ho : c.expr.NoIntegerOr) (ds : Nat) (r : List Lx) :
    ∃ N, ∀ n, N ≤ n → defineConst n (reading sc ds (.tk .eq :: (c.text ++ .tk .semi :: r)) .ident none (.name c.name)) =
      .ok (some (reading (sc ++ [(c.name, .const c.value)]) ds r .semi none (.tk .semi))) := by
  have hb : (reading sc ds (.tk .eq :: (c.text ++ .tk .semi :: r)) .ident none (.name c.name)).body =
      .ident :: .eq :: (c.expr.toks ++ .semi :: r.map (Lx.tok (table sc) 0)) := by
    simp only [DS.body, reading, List.map_cons, List.map_append, body_toks hsc hc]
    rfl
  obtain ⟨N, t, hN⟩ := KL.declareConst_value c.expr c.value (.semi :: r.map (Lx.tok (table sc) 0))
    ⟨.ident :: .eq :: (c.expr.toks ++ .semi :: r.map (Lx.tok (table sc) 0)), 0, false, .none_, 0#32,
      [0#16, 0#16, 0#16, 0#16]⟩ hv ho (by intro t h; cases h; decide) rfl
  refine ⟨N, fun n hn => ?_⟩
  obtain ⟨h1, h2, h3, h4⟩ := hN n hn
  unfold defineConst
  rw [hb, h1]
  simp only [h2, h3, h4, const_literal]
  rw [if_neg (by simp), if_neg (by simp)]
  have hl : (Tk.semi :: r.map (Lx.tok (table sc) 0)).length = r.length + 1 := by simp
  have hd : (Lx.name c.name :: .tk .eq :: (c.text ++ .tk .semi :: r)).drop
      ((Lx.tk .eq :: (c.text ++ .tk .semi :: r)).length + 1 - (r.length + 1)) = .tk .semi :: r := by
    have : (Lx.tk .eq :: (c.text ++ .tk .semi :: r)).length + 1 - (r.length + 1) =
        (Lx.name c.name :: .tk .eq :: c.text).length := by simp; omega
    rw [this]
    exact List.drop_left ..
  simp only [hl, DS.left, reading, hd, table_append]
  rfl

/-- The constants of a block are defined. -/
theorem constantGroup_ok (ds : Nat) {x : Lx} {t : Tk} (htk : t ≠ .ident) (hx : ∀ tab st, x.tok tab st = t ∧ x.ptr tab st = none)
    (r : List Lx) (cs : List Cst) : ∀ (sc : Scope) (tok : Tk) (ptr : Option Comp.Sym) (last : Lx) (st : Nat), AllNew sc →
    (∀ c ∈ cs.head?, Apart sc st c.name) → (∀ c ∈ cs.tail, ∀ e ∈ sc, ¬ SameName e.1 c.name) → (∀ c ∈ cs, New c.name) →
    (cs.map (·.name)).Pairwise (fun n m => ¬ SameName n m) → CstsRight sc cs →
    ∃ N, ∀ n, N ≤ n → constantGroup n ((reading sc ds (cs.flatMap Cst.toks ++ x :: r) tok ptr last).get st) =
      .ok (some (reading (sc ++ cstScope cs) ds r t none x)) := by
  induction cs with
  | nil =>
    intro sc tok ptr last st hsc hst hsts hn hd hr
    refine ⟨1, fun n hn => ?_⟩
    obtain ⟨n, rfl⟩ : ∃ k, n = k + 1 := ⟨n - 1, by omega⟩
    simp only [List.flatMap_nil, List.nil_append, get_any, (hx _ _).1, (hx _ _).2, cstScope, List.map_nil, List.append_nil]
    exact constantGroup_end htk
  | cons c cs ih =>
    intro sc tok ptr last st hsc hst hsts hn hd hr
    obtain ⟨⟨r1, r2, r3⟩, r4⟩ := hr
    obtain ⟨N, hN⟩ := defineConst_ok hsc r1 r2 r3 ds (cs.flatMap Cst.toks ++ x :: r)
    have hc : AllNew (sc ++ [(c.name, Ent.const c.value)]) := hsc.append (by
      intro e he; rw [List.mem_singleton] at he; subst he; exact hn c (List.mem_cons_self ..))
    rw [List.map_cons, List.pairwise_cons] at hd
    have hfar : ∀ c' ∈ cs, ∀ e ∈ sc ++ [(c.name, Ent.const c.value)], ¬ SameName e.1 c'.name := by
      intro c' hc' e he
      rcases List.mem_append.1 he with he | he
      · exact hsts c' hc' e he
      · rw [List.mem_singleton] at he; subst he
        exact hd.1 _ (List.mem_map.2 ⟨c', hc', rfl⟩)
    obtain ⟨M, hM⟩ := ih _ .semi none (.tk .semi) 0 hc
      (fun c' hc' => .inr ⟨rfl, hfar c' (List.mem_of_mem_head? hc')⟩)
      (fun c' hc' => hfar c' (List.mem_of_mem_tail hc')) (fun c' hc' => hn c' (List.mem_cons_of_mem _ hc')) hd.2 r4
    refine ⟨max N M + 1, fun n hn' => ?_⟩
    obtain ⟨n, rfl⟩ : ∃ k, n = k + 1 := ⟨n - 1, by omega⟩
    have ht : (c :: cs).flatMap Cst.toks ++ x :: r =
        .name c.name :: .tk .eq :: (c.text ++ .tk .semi :: (cs.flatMap Cst.toks ++ x :: r)) := by
      simp [Cst.toks, List.append_assoc]
    have hfr : Fresh sc st c.name := by
      have := fresh_placed (lev := 0) (f := 0) (o := []) (hn c (List.mem_cons_self ..)) (by simp) (hst c (by simp))
      simpa [placed] using this
    rw [ht, get_fresh hfr, constantGroup_next (by rfl) (hN n (by omega)) (by rfl) rfl, hM n (by omega)]
    simp [cstScope, List.append_assoc]

/-- The first token after the constants. -/
theorem varToks_head (gs : List Group) {t : Tk} (htk : Goon t) (r : List Lx) : ∃ x t' r', varToks gs ++ .tk t :: r = x :: r' ∧
    (∀ tab st, x.tok tab st = t' ∧ x.ptr tab st = none) ∧ t' ≠ .ident ∧ t' ≠ .other 0x84 ∧ t' ≠ .other 0x94 ∧
      t' ≠ .other 0xa8 := by
  unfold varToks
  split
  · exact ⟨.tk t, t, r, rfl, fun _ _ => ⟨rfl, rfl⟩, by rcases htk with rfl | rfl <;> decide⟩
  · exact ⟨.var_, .other 0xa9, _, rfl, fun _ _ => ⟨rfl, rfl⟩, by decide⟩

/-- The constants and variables of a block are declared. -/
theorem variablePart_ok {lev f : Nat} {sc : Scope} (hsc : AllNew sc) {cs : List Cst} {gs : List Group} {t : Tk}
    (htk : Goon t) (hcs : CstsRight sc cs) (hcn : ∀ c ∈ cs.tail, ∀ e ∈ sc, ¬ SameName e.1 c.name)
    (hfirst : ∀ g ∈ gs.tail, ∀ e ∈ sc, ¬ SameName e.1 g.first)
    (hn : ∀ m ∈ cs.map (·.name) ++ (orderOf gs).map (·.1), New m)
    (hd : (cs.map (·.name) ++ (orderOf gs).map (·.1)).Pairwise fun n m => ¬ SameName n m)
    (ht : ∀ g ∈ gs, g.Right) (hb : ∀ g ∈ gs, g.Bounds (sc ++ cstScope cs ++ placed lev f (orderOf gs)))
    (hs : placedEnd f (orderOf gs) ≤ 65535) (r : List Lx)
    (tok ptr last) : ∃ N, ∀ n, N ≤ n → variablePart lev n
        ((reading sc f (cstToks cs ++ (varToks gs ++ .tk t :: r)) tok ptr last).get 0) =
      .ok (some (declared lev f (sc ++ cstScope cs) (orderOf gs) r t none (.tk t))) := by
  obtain ⟨x, t', r', hx, hxt, hx1, hx2, hx3, -⟩ := varToks_head gs htk r
  have hd' := List.pairwise_append.1 hd
  have hcnew : AllNew (cstScope cs) := by
    intro e he
    obtain ⟨c, hc, rfl⟩ := List.mem_map.1 he
    exact hn _ (List.mem_append_left _ (List.mem_map.2 ⟨c, hc, rfl⟩))
  -- the constants
  have h1 : ∃ N, ∀ n, N ≤ n → ∃ d, (reading sc f (cstToks cs ++ x :: r') tok ptr last).get 0 = d ∧ d.tok ≠ .other 0x94 ∧
      d.tab = table sc ∧ constantPart (table sc).length n d = .ok (some (reading (sc ++ cstScope cs) f r' t' none x)) := by
    by_cases hc : cs = []
    · subst hc
      refine ⟨0, fun n _ => ⟨_, rfl, ?_⟩⟩
      simp only [cstToks, if_true, List.nil_append, get_any, (hxt _ _).1, (hxt _ _).2]
      refine ⟨hx3, rfl, ?_⟩
      unfold constantPart
      rw [if_neg (show (reading sc f r' t' none x).tok ≠ _ from hx2)]
      simp [cstScope]
    · obtain ⟨N, hN⟩ := constantGroup_ok f hx1 hxt r' cs sc (.other 0x84) none (.tk (.other 0x84)) (table sc).length hsc
        (fun c hc => .inl ⟨sc, [], by simp, rfl, by simp⟩) hcn
        (fun c hc => hn _ (List.mem_append_left _ (List.mem_map.2 ⟨c, hc, rfl⟩))) hd'.1 hcs
      refine ⟨N, fun n hn => ⟨_, rfl, ?_⟩⟩
      rw [cstToks, if_neg hc, List.cons_append, get_tk]
      refine ⟨by show Tk.other 0x84 ≠ _; decide, rfl, ?_⟩
      unfold constantPart
      rw [if_pos (by rfl)]
      exact hN n hn
  obtain ⟨N1, hN1⟩ := h1
  have hap : ∀ m ∈ (orderOf gs).map (·.1), Apart (sc ++ cstScope cs) (table sc).length m := fun m hm =>
    .inl ⟨sc, cstScope cs, rfl, rfl, fun e he => by
      obtain ⟨c, hc, rfl⟩ := List.mem_map.1 he
      exact hd'.2.2 _ (List.mem_map.2 ⟨c, hc, rfl⟩) _ hm⟩
  by_cases hg : gs = []
  · subst hg
    refine ⟨N1, fun n hn => ?_⟩
    obtain ⟨d, hd1, hd2, hd3, hd4⟩ := hN1 n hn
    simp only [varToks, if_true, List.nil_append] at hx ⊢
    injection hx with hx4 hx5
    subst hx4; subst hx5
    rw [hd1]
    unfold variablePart
    simp only [hd3, if_neg hd2, hd4, Res.ok_bind]
    have e : declared lev f (sc ++ cstScope cs) (orderOf []) r t none (.tk t) =
        reading (sc ++ cstScope cs) f r t none (.tk t) := by
      simp [declared, orderOf, placed, placedEnd]
    rw [e]
    have ht' : t' = t := ((hxt [] 0).1).symm
    subst ht'
    rcases htk with rfl | rfl <;> rfl
  · have hmem : ∀ g ∈ gs, ∀ m ∈ g.names, m ∈ (orderOf gs).map (·.1) := fun g hg m hm => mem_names hg hm
    obtain ⟨N, hN⟩ := variableGroup_ok (lev := lev) (f := f) (hsc.append hcnew) (t := t)
      (by rcases htk with rfl | rfl <;> decide) r (table sc).length gs [] (.other 0xa9)
      none .var_ (table sc).length
      (fun g hg => hap _ (hmem g (List.mem_of_mem_head? hg) _ (by simp [Group.names])))
      (fun g hg e he => by
        rcases List.mem_append.1 he with he | he
        · exact hfirst g hg e he
        · obtain ⟨c, hc, rfl⟩ := List.mem_map.1 he
          exact hd'.2.2 _ (List.mem_map.2 ⟨c, hc, rfl⟩) _ (hmem g (List.mem_of_mem_tail hg) _ (by simp [Group.names])))
      (fun g hg m hm => hap _ (hmem g hg _ (by simp [Group.names, hm]))) hb
      (fun m hm => hn m (List.mem_append_right _ hm)) hd'.2.1 ht hs
    refine ⟨max N N1, fun n hn => ?_⟩
    have h := hN n (by omega)
    obtain ⟨d, hd1, hd2, hd3, hd4⟩ := hN1 n (by omega)
    rw [varToks, if_neg hg, List.cons_append] at hx ⊢
    injection hx with hx4 hx5
    subst hx4; subst hx5
    rw [hd1]
    have ht' : t' = .other 0xa9 := ((hxt [] 0).1).symm
    subst ht'
    unfold variablePart
    simp only [hd3, if_neg hd2, hd4, Res.ok_bind]
    have e : declared lev f (sc ++ cstScope cs) [] (gs.flatMap Group.toks ++ .tk t :: r) (.other 0xa9) none .var_ =
        reading (sc ++ cstScope cs) f (gs.flatMap Group.toks ++ .tk t :: r) (.other 0xa9) none .var_ := by
      simp [declared, placed, placedEnd]
    rw [e] at h
    exact h

/-! ### Parameters -/

/-- Parameters that have no place yet. -/
def drafts (lev : Nat) (l : List (List Byte × Ty)) : Scope := l.map fun e => (e.1, .var ⟨e.2, lev, 0⟩)

/-- The parameters in order. -/
def parmOrder (gs : List Group) : List (List Byte × Ty) :=
  gs.flatMap fun g => g.names.map fun n => (n, g.ty)

theorem mem_drafts {lev : Nat} {l : List (List Byte × Ty)} {e : List Byte × Ent} (h : e ∈ drafts lev l) :
    e.1 ∈ l.map (·.1) := by
  obtain ⟨e0, he0, rfl⟩ := List.mem_map.1 h
  exact List.mem_map.2 ⟨e0, he0, rfl⟩

theorem modify_middle {α : Type} (f : α → α) (a : List α) (x : α) (b : List α) :
    (a ++ x :: b).modify a.length f = a ++ f x :: b := by
  induction a with
  | nil => rfl
  | cons y a ih => simp only [List.cons_append, List.length_cons, List.modify_succ_cons, ih]

theorem setKind_ok (sc : Scope) (lev : Nat) (l r : List (List Byte × Ty)) (n : List Byte) (t u : Ty) (ds : Nat)
    (rest tok ptr last) :
    setKind (table (sc ++ drafts lev l)).length t.kind (reading (sc ++ drafts lev (l ++ (n, u) :: r)) ds rest tok ptr last) =
      reading (sc ++ drafts lev (l ++ (n, t) :: r)) ds rest tok ptr last := by
  have e : ∀ u : Ty, table (sc ++ drafts lev (l ++ (n, u) :: r)) = table (sc ++ drafts lev l) ++
      (n, Comp.Sym.var ⟨u.kind, lev, 0⟩) :: (drafts lev r).map fun e => (e.1, e.2.sym) := by
    intro u
    simp [table, drafts, Ent.sym]
  simp only [setKind, reading, e, modify_middle]

theorem fresh_drafts {lev : Nat} {sc : Scope} {o : List (List Byte × Ty)} {n : List Byte} (h : New n)
    (hd : ∀ m ∈ o.map (·.1), ¬ SameName m n) : Fresh (sc ++ drafts lev o) (table sc).length n :=
  ⟨h, _, _, rfl, fun e he => hd _ (mem_drafts he), .inl rfl⟩

theorem declareParm_comma {lev lv n : Nat} {d d1 d2 d3 : DS} {k : Kind} (hi : d.tok = .ident)
    (h1 : DS.get { d with tab := d.tab ++ [(d.last.string, Comp.Sym.var ⟨.int, lev, 0⟩)] } 0 = d1) (hc : d1.tok = .comma)
    (h2 : d1.get lv = d2) (h3 : declareParm lev lv n d2 = .ok (some (some k, d3))) :
    declareParm lev lv (n + 1) d = .ok (some (some k, setKind d.tab.length k d3)) := by
  subst h1; subst h2
  rw [declareParm]
  refine (if_neg (by simpa using hi)).trans ((if_pos hc).trans ?_)
  rw [h3]; rfl

theorem declareParm_colon {lev lv n : Nat} {d d1 d2 : DS} {k : Kind} {size : Nat} (hi : d.tok = .ident)
    (h1 : DS.get { d with tab := d.tab ++ [(d.last.string, Comp.Sym.var ⟨.int, lev, 0⟩)] } 0 = d1) (hc : d1.tok ≠ .comma)
    (h2 : d1.expect .colon = d2) (h3 : d2.ptr = some (.type (some k) size)) :
    declareParm lev lv (n + 1) d = .ok (some (some k, setKind d.tab.length k (d2.get 0))) := by
  subst h1; subst h2
  rw [declareParm]
  refine (if_neg (by simpa using hi)).trans ((if_neg hc).trans ?_)
  simp only [h3]

theorem add_draft (sc : Scope) (lev : Nat) (o : List (List Byte × Ty)) (n : List Byte) (ds : Nat) (rest tok ptr) :
    ({ reading (sc ++ drafts lev o) ds rest tok ptr (.name n) with
        tab := table (sc ++ drafts lev o) ++ [(n, Comp.Sym.var ⟨.int, lev, 0⟩)] } : DS) =
      reading (sc ++ drafts lev (o ++ [(n, .num .integer)])) ds rest tok ptr (.name n) := by
  simp only [reading, table, drafts, List.map_append, List.map_cons, List.map_nil, List.append_assoc]
  rfl

theorem declareParm_ok {lev : Nat} {sc : Scope} (hsc : AllNew sc) {t : Ty} {w : List Byte}
    (hw : SameName t.name w) (ds : Nat) (x : Tk) (r : List Lx) (more : List (List Byte)) :
    ∀ (first : List Byte) (o : List (List Byte × Ty)) (ptr : Option Comp.Sym),
    (∀ m ∈ o.map (·.1), New m) → (∀ m ∈ first :: more, New m) →
    (∀ m ∈ more, ∀ m' ∈ o.map (·.1), ¬ SameName m' m) →
    (first :: more).Pairwise (fun n m => ¬ SameName n m) →
    ∀ n, more.length + 1 ≤ n →
    declareParm lev (table sc).length n (reading (sc ++ drafts lev o) ds
        (commaNames more ++ .tk .colon :: .name w :: .tk x :: r) .ident ptr (.name first)) =
      .ok (some (some t.kind, reading (sc ++ drafts lev (o ++ (first :: more).map fun n => (n, t))) ds r x none (.tk x))) := by
  have all : ∀ (o : List (List Byte × Ty)) (n : List Byte), (∀ m ∈ o.map (·.1), New m) → New n →
      ∀ m ∈ (o ++ [(n, Ty.num .integer)]).map (·.1), New m := by
    intro o n ho hn m hm
    simp only [List.map_append, List.map_cons, List.map_nil, List.mem_append, List.mem_singleton] at hm
    rcases hm with hm | rfl
    · exact ho m hm
    · exact hn
  induction more with
  | nil =>
    intro first o ptr ho hf hd hp n hn
    obtain ⟨n, rfl⟩ : ∃ k, n = k + 1 := ⟨n - 1, by omega⟩
    have hnew : AllNew (sc ++ drafts lev (o ++ [(first, .num .integer)])) :=
      hsc.append fun e he => all o first ho (hf first (by simp)) _ (mem_drafts he)
    rw [declareParm_colon (k := t.kind) (size := t.size) (d1 := reading (sc ++ drafts lev (o ++ [(first, .num .integer)])) ds
        (.name w :: .tk x :: r) .colon none (.tk .colon)) (by rfl)
      (by exact congrArg (fun d => DS.get d 0) (add_draft ..)) (by show Tk.colon ≠ Tk.comma; decide)
      (by exact get_primed hnew (type_primed t) hw _ _ _ _ _) (by rfl)]
    refine congrArg (fun z => Res.ok (some (some t.kind, z))) ?_
    exact setKind_ok sc lev o [] first t (.num .integer) ds r x none (.tk x)
  | cons m more ih =>
    intro first o ptr ho hf hd hp n hn
    obtain ⟨n, rfl⟩ : ∃ k, n = k + 1 := ⟨n - 1, by omega⟩
    simp only [commaNames, List.cons_append]
    rw [List.pairwise_cons] at hp
    have key : ∀ m' ∈ m :: more, ∀ m'' ∈ (o ++ [(first, Ty.num .integer)]).map (·.1), ¬ SameName m'' m' := by
      intro m' hm' m'' hm''
      simp only [List.map_append, List.map_cons, List.map_nil, List.mem_append, List.mem_singleton] at hm''
      rcases hm'' with h | rfl
      · exact hd m' hm' m'' h
      · exact hp.1 m' hm'
    have h3 := ih m (o ++ [(first, .num .integer)]) none (all o first ho (hf first (by simp)))
      (fun m' hm' => hf m' (List.mem_cons_of_mem _ hm')) (fun m' hm' => key m' (List.mem_cons_of_mem _ hm')) hp.2
      n (by simp at hn; omega)
    rw [declareParm_comma (by rfl) (by exact congrArg (fun d => DS.get d 0) (add_draft ..)) (by rfl)
      (get_fresh (fresh_drafts (hf m (by simp)) (key m (by simp))) _ _ _ _ _) h3]
    refine congrArg (fun z => Res.ok (some (some t.kind, z))) ?_
    have := setKind_ok sc lev o ((m :: more).map fun n => (n, t)) first t (.num .integer) ds r x none (.tk x)
    rw [List.append_assoc]
    exact this

theorem formalParms_next {lev lv n : Nat} {d d1 d2 : DS} {x : Option Kind} (h1 : d.get lv = d1) (hv : d1.tok ≠ .other 0xa9)
    (h2 : declareParm lev lv n d1 = .ok (some (x, d2))) :
    formalParms lev lv (n + 1) d = if d2.tok = .semi then formalParms lev lv n d2 else .ok (some d2) := by
  subst h1
  rw [formalParms]
  refine (if_neg hv).trans ?_
  rw [h2]; rfl

theorem parmOrder_cons (g : Group) (gs : List Group) :
    parmOrder (g :: gs) = ((g.first :: g.more).map fun n => (n, g.ty)) ++ parmOrder gs := by
  simp [parmOrder, Group.names]

theorem formalParms_ok {lev : Nat} {sc : Scope} (hsc : AllNew sc) (ds : Nat) (r : List Lx) (gs : List Group) :
    ∀ (g : Group) (o : List (List Byte × Ty)) (tok : Tk) (ptr : Option Comp.Sym) (last : Lx),
    (∀ m ∈ (o ++ parmOrder (g :: gs)).map (·.1), New m) →
    ((o ++ parmOrder (g :: gs)).map (·.1)).Pairwise (fun n m => ¬ SameName n m) →
    (∀ g' ∈ g :: gs, SameName g'.ty.name g'.written) →
    ∃ N, ∀ n, N ≤ n → formalParms lev (table sc).length n
        (reading (sc ++ drafts lev o) ds (sections (g :: gs) ++ .tk .rparen :: r) tok ptr last) =
      .ok (some (reading (sc ++ drafts lev (o ++ parmOrder (g :: gs))) ds r .rparen none (.tk .rparen))) := by
  induction gs with
  | nil =>
    intro g o tok ptr last hn hd ht
    refine ⟨g.more.length + 2, fun n hN => ?_⟩
    obtain ⟨n, rfl⟩ : ∃ k, n = k + 1 := ⟨n - 1, by omega⟩
    rw [parmOrder_cons] at hn hd ⊢
    simp only [parmOrder, List.flatMap_nil, List.append_nil, List.map_append, List.map_map] at hn hd ⊢
    have e1 : (List.map ((fun x : List Byte × Ty => x.fst) ∘ fun n => (n, g.ty)) (g.first :: g.more)) = g.first :: g.more := by
      show List.map id _ = _; simp
    rw [e1] at hn hd
    rw [List.pairwise_append] at hd
    have e : sections [g] ++ .tk .rparen :: r = .name g.first :: (commaNames g.more ++ .tk .colon :: .name g.written ::
        .tk .rparen :: r) := by simp [sections, Group.section]
    rw [e, formalParms_next (get_fresh (fresh_drafts (hn g.first (by simp))
        (fun m hm => hd.2.2 m hm _ (by simp))) _ _ _ _ _) (by show Tk.ident ≠ _; decide)
      (declareParm_ok hsc (ht g (by simp)) ds .rparen r g.more g.first o none
        (fun m hm => hn m (List.mem_append_left _ hm)) (fun m hm => hn m (List.mem_append_right _ hm))
        (fun m hm m' hm' => hd.2.2 m' hm' m (by simp [hm])) hd.2.1 n (by omega))]
    exact if_neg (by show Tk.rparen ≠ Tk.semi; decide)
  | cons g' gs ih =>
    intro g o tok ptr last hn hd ht
    have ea : o ++ parmOrder (g :: g' :: gs) = (o ++ (g.first :: g.more).map fun n => (n, g.ty)) ++ parmOrder (g' :: gs) := by
      rw [parmOrder_cons, List.append_assoc]
    rw [ea] at hn hd ⊢
    obtain ⟨N, hN⟩ := ih g' _ .semi none (.tk .semi) hn hd (fun g'' h => ht g'' (List.mem_cons_of_mem _ h))
    refine ⟨max N (g.more.length + 2) + 1, fun n hn' => ?_⟩
    obtain ⟨n, rfl⟩ : ∃ k, n = k + 1 := ⟨n - 1, by omega⟩
    rw [← hN n (by omega)]
    rw [List.map_append, List.pairwise_append] at hd
    have hd := hd.1
    have hn : ∀ m ∈ (o ++ (g.first :: g.more).map fun n => (n, g.ty)).map (·.1), New m := by
      intro m hm; exact hn m (by rw [List.map_append]; exact List.mem_append_left _ hm)
    rw [List.map_append, List.map_map] at hn hd
    have e1 : (List.map ((fun x : List Byte × Ty => x.fst) ∘ fun n => (n, g.ty)) (g.first :: g.more)) = g.first :: g.more := by
      show List.map id _ = _; simp
    rw [e1] at hn hd
    rw [List.pairwise_append] at hd
    have e : sections (g :: g' :: gs) ++ .tk .rparen :: r = .name g.first :: (commaNames g.more ++ .tk .colon :: .name g.written ::
        .tk .semi :: (sections (g' :: gs) ++ .tk .rparen :: r)) := by simp [sections, Group.section]
    rw [e, formalParms_next (get_fresh (fresh_drafts (hn g.first (by simp))
        (fun m hm => hd.2.2 m hm _ (by simp))) _ _ _ _ _) (by show Tk.ident ≠ _; decide)
      (declareParm_ok hsc (ht g (by simp)) ds .semi _ g.more g.first o none
        (fun m hm => hn m (List.mem_append_left _ hm)) (fun m hm => hn m (List.mem_append_right _ hm))
        (fun m hm m' hm' => hd.2.2 m' hm' m (by simp [hm])) hd.2.1 n (by omega))]
    exact if_pos rfl

theorem parmKinds_drafts (lev : Nat) (l : List (List Byte × Ty)) :
    parmKinds ((drafts lev l).map fun e => (e.1, e.2.sym)) = (l.map (·.2)).map Ty.kind := by
  induction l with
  | nil => rfl
  | cons e l ih =>
    simp only [drafts, parmKinds, List.map_cons, List.map_map] at ih ⊢
    rw [List.filterMap_cons]
    simp only [Function.comp, Ent.sym] at ih ⊢
    rw [ih]

theorem placeParms_drafts (lev : Nat) (l : List (List Byte × Ty)) :
    placeParms ((drafts lev l).map fun e => (e.1, e.2.sym)) =
      (((l.map (·.1)).zip ((parmVars lev (l.map (·.2))).map .var) : Scope).map fun e => (e.1, e.2.sym)) := by
  induction l with
  | nil => rfl
  | cons e l ih =>
    obtain ⟨n, t⟩ := e
    have h1 := parmKinds_drafts lev ((n, t) :: l)
    have h2 : ((drafts lev ((n, t) :: l)).map fun e => (e.1, e.2.sym)) =
      (n, Comp.Sym.var ⟨t.kind, lev, 0⟩) :: (drafts lev l).map fun e => (e.1, e.2.sym) := by
      simp [drafts, Ent.sym]
    rw [h2] at h1 ⊢
    rw [placeParms, h1, ih, parmsSize_kind]
    simp only [List.map_cons, parmVars, List.zip_cons_cons, Ent.sym, List.length_cons, List.length_map]
    rw [show ((2 * (l.length + 1) : Nat) : Int) = 2 * ((l.length + 1 : Nat) : Int) by omega]

theorem parmScope_order (lev : Nat) (gs : List Group) : parmScope lev gs =
    ((parmOrder gs).map (·.1)).zip ((parmVars lev ((parmOrder gs).map (·.2))).map .var) := by
  have h1 : (parmOrder gs).map (·.1) = gs.flatMap Group.names := by
    simp [parmOrder, List.map_flatMap, Function.comp_def]
  have h2 : (parmOrder gs).map (·.2) = parmTypes gs := by
    simp [parmOrder, parmTypes, List.map_flatMap, Function.comp_def]
  rw [h1, h2]; rfl

theorem parmTypes_order (gs : List Group) : parmTypes gs = (parmOrder gs).map (·.2) := by
  simp [parmOrder, parmTypes, List.map_flatMap, Function.comp_def]

theorem parmVars_length (lev : Nat) (ts : List Ty) : (parmVars lev ts).length = ts.length := by
  induction ts with
  | nil => rfl
  | cons t ts ih => simp [parmVars, ih]

theorem parmScope_names (lev : Nat) (gs : List Group) :
    (parmScope lev gs).map (·.1) = (parmOrder gs).map (·.1) := by
  rw [parmScope_order, List.map_fst_zip]
  simp [parmVars_length]

theorem formalParameterList_none {lev : Nat} {name : List Byte} {label n : Nat} {d : DS} (h : d.tok ≠ .lparen) :
    formalParameterList lev name label n d = .ok (some { d with
      tab := d.tab.take (d.tab.length - 1) ++ [(name, .proc ⟨lev, label, []⟩)] }) := by
  unfold formalParameterList
  simp only [if_neg h]
  show Res.ok (some _) = _
  simp only [List.drop_length]
  rfl

theorem formalParameterList_some {lev : Nat} {name : List Byte} {label n : Nat} {d e : DS} (h : d.tok = .lparen)
    (h1 : formalParms (lev + 1) d.tab.length n d = .ok (some e)) :
    formalParameterList lev name label n d = .ok (some { e.expect .rparen with
      tab := (e.expect .rparen).tab.take (d.tab.length - 1) ++ (name, .proc ⟨lev, label,
        parmKinds ((e.expect .rparen).tab.drop d.tab.length)⟩) :: placeParms ((e.expect .rparen).tab.drop d.tab.length) }) := by
  unfold formalParameterList
  simp only [if_pos h, h1]
  rfl

/-- The parameters of a procedure are read. -/
theorem formalParameterList_ok {lev : Nat} {sc : Scope} (name : List Byte) (label : Nat) (hsc : AllNew sc)
    (hname : New name) (ds : Nat) {gs : List Group} (r : List Lx)
    (hn : ∀ m ∈ (parmOrder gs).map (·.1), New m)
    (hd : ((parmOrder gs).map (·.1)).Pairwise (fun n m => ¬ SameName n m))
    (ht : ∀ g ∈ gs, SameName g.ty.name g.written) (tok ptr last) :
    ∃ N, ∀ n, N ≤ n → formalParameterList lev name label n
        ((reading (sc ++ [(name, .proc ⟨lev, label, []⟩)]) ds (parmToks gs ++ .tk .semi :: r) tok ptr last).get 0) =
      .ok (some (reading (sc ++ [(name, .proc ⟨lev, label, parmTypes gs⟩)] ++ parmScope (lev + 1) gs) ds r .semi none (.tk .semi))) := by
  have tl : (table (sc ++ [(name, .proc ⟨lev, label, []⟩)])).length - 1 = (table sc).length := by
    simp [table]
  cases gs with
  | nil =>
    refine ⟨0, fun n _ => ?_⟩
    simp only [parmToks, if_true, List.nil_append, get_tk]
    rw [formalParameterList_none (by show Tk.semi ≠ Tk.lparen; decide)]
    refine congrArg (fun z => Res.ok (some z)) ?_
    simp only [reading, tl]
    have e : (table (sc ++ [(name, .proc ⟨lev, label, []⟩)])).take (table sc).length = table sc := by
      rw [table_append, List.take_left]
    rw [e]
    simp [table, parmScope, Ent.sym, parmTypes]
  | cons g gs =>
    have hall : AllNew (sc ++ [(name, Ent.proc ⟨lev, label, []⟩)]) := hsc.append (by simpa [AllNew] using hname)
    obtain ⟨N, hN⟩ := formalParms_ok (lev := lev + 1) hall ds (.tk .semi :: r) gs g [] .lparen none (.tk .lparen) hn hd ht
    refine ⟨N, fun n hn => ?_⟩
    have e : parmToks (g :: gs) ++ .tk .semi :: r = .tk .lparen :: (sections (g :: gs) ++ .tk .rparen :: .tk .semi :: r) := by
      simp [parmToks]
    rw [e, get_tk]
    have hN := hN n hn
    simp only [drafts, List.map_nil, List.append_nil, List.nil_append] at hN
    rw [formalParameterList_some (by rfl) hN]
    refine congrArg (fun z => Res.ok (some z)) ?_
    have ex : DS.expect (reading (sc ++ [(name, .proc ⟨lev, label, []⟩)] ++ drafts (lev + 1) (parmOrder (g :: gs))) ds (.tk .semi :: r)
      .rparen none (.tk .rparen)) .rparen = reading (sc ++ [(name, .proc ⟨lev, label, []⟩)] ++ drafts (lev + 1) (parmOrder (g :: gs))) ds r
      .semi none (.tk .semi) := rfl
    unfold drafts at ex
    rw [ex]
    simp only [reading, tl]
    have e1 : (table (sc ++ [(name, .proc ⟨lev, label, []⟩)] ++ drafts (lev + 1) (parmOrder (g :: gs)))).take (table sc).length = table sc := by
      rw [List.append_assoc, table_append, List.take_left]
    have e2 : (table (sc ++ [(name, .proc ⟨lev, label, []⟩)] ++ drafts (lev + 1) (parmOrder (g :: gs)))).drop
        (table (sc ++ [(name, .proc ⟨lev, label, []⟩)])).length = (drafts (lev + 1) (parmOrder (g :: gs))).map fun e => (e.1, e.2.sym) := by
      rw [table_append (sc ++ [(name, Ent.proc ⟨lev, label, []⟩)]), List.drop_left]
    unfold drafts at e1 e2
    rw [e1, e2]
    have e3 := parmKinds_drafts (lev + 1) (parmOrder (g :: gs))
    have e4 := placeParms_drafts (lev + 1) (parmOrder (g :: gs))
    unfold drafts at e3 e4
    rw [e3, e4, parmScope_order, parmTypes_order]
    simp only [table, List.map_append, List.append_assoc, List.map_cons, List.map_nil, List.cons_append, List.nil_append]
    rfl

/-! ### The heading -/


theorem get_file {f : List Byte} (hf : SameName inputName f ∨ SameName outputName f) (r : List Lx)
    (tok ptr last) : ∃ o p, (reading [] 4 (.name f :: r) tok ptr last).get 0 =
      reading [] 4 r (.file o) p (.name f) := by
  rcases hf with h | h
  · exact ⟨_, _, get_primed (by simp [AllNew]) input_primed h _ _ _ _ _⟩
  · exact ⟨_, _, get_primed (by simp [AllNew]) output_primed h _ _ _ _ _⟩

theorem fileList_next {n : Nat} {o : Nat} {d d1 d2 : DS} (h1 : d.get 0 = d1) (hi : d1.tok = .file o)
    (h2 : d1.get 0 = d2) :
    fileList (n + 1) d = if d2.tok = .comma then fileList n d2 else some (d2.expect .rparen) := by
  subst h1; subst h2
  rw [fileList]
  refine (if_neg (by rw [hi]; intro h; cases h)).trans ?_
  rw [if_pos (show isFile (d.get 0).tok = true from by rw [hi]; rfl)]

theorem fileList_ok (r : List Lx) (fs : List (List Byte)) :
    ∀ (f : List Byte) (tok : Tk) (ptr : Option Comp.Sym) (last : Lx),
    (∀ g ∈ f :: fs, SameName inputName g ∨ SameName outputName g) → ∀ n, fs.length + 1 ≤ n →
    fileList n (reading [] 4 (.name f :: (commaNames fs ++ .tk .rparen :: r)) tok ptr last) =
      some ((reading [] 4 r .rparen none (.tk .rparen)).get 0) := by
  induction fs with
  | nil =>
    intro f tok ptr last hf n hn
    obtain ⟨n, rfl⟩ : ∃ k, n = k + 1 := ⟨n - 1, by omega⟩
    obtain ⟨o, p, h1⟩ := get_file (hf f (by simp)) (commaNames [] ++ .tk .rparen :: r) tok ptr last
    rw [fileList_next h1 rfl rfl]
    simp only [commaNames, List.nil_append, get_tk]
    exact (if_neg (by show Tk.rparen ≠ Tk.comma; decide)).trans rfl
  | cons g fs ih =>
    intro f tok ptr last hf n hn
    obtain ⟨n, rfl⟩ : ∃ k, n = k + 1 := ⟨n - 1, by omega⟩
    obtain ⟨o, p, h1⟩ := get_file (hf f (by simp)) (commaNames (g :: fs) ++ .tk .rparen :: r) tok ptr last
    rw [fileList_next h1 rfl rfl]
    simp only [commaNames, List.cons_append, get_tk]
    refine (if_pos rfl).trans ?_
    exact ih g _ _ _ (fun x hx => hf x (List.mem_cons_of_mem _ hx)) n (by simp at hn; omega)

theorem heading_none {n : Nat} {d d1 : DS} (h1 : d.expect .ident = d1) (ht : d1.tok ≠ .lparen) :
    heading n d = some (d1.expect .semi) := by
  subst h1
  unfold heading
  simp only [if_neg ht]
  rfl

theorem heading_some {n : Nat} {d d1 d2 : DS} (h1 : d.expect .ident = d1) (ht : d1.tok = .lparen)
    (h2 : fileList n d1 = some d2) : heading n d = some (d2.expect .semi) := by
  subst h1
  unfold heading
  simp only [if_pos ht, h2]
  rfl

theorem heading_ok {n : Nat} {nm : List Byte} {fs : List (List Byte)} (hn : New nm)
    (hf : ∀ f ∈ fs, SameName inputName f ∨ SameName outputName f) (hl : fs.length ≤ n) (r : List Lx)
    (tok ptr last) :
    heading n ((reading [] 4 (.name nm :: (fileToks fs ++ .tk .semi :: r)) tok ptr last).get 0) =
      some ((reading [] 4 r .semi none (.tk .semi)).get 0) := by
  have hfr : Fresh [] 0 nm := ⟨hn, [], [], rfl, by simp, .inr ⟨rfl, rfl⟩⟩
  rw [get_fresh hfr]
  cases fs with
  | nil =>
    exact heading_none (d := reading [] 4 (.tk .semi :: r) .ident none (.name nm))
      (d1 := reading [] 4 r .semi none (.tk .semi)) rfl
      (by show Tk.semi ≠ Tk.lparen; decide)
  | cons f fs =>
    have e2 : fileToks (f :: fs) ++ .tk .semi :: r = .tk .lparen :: .name f ::
        (commaNames fs ++ .tk .rparen :: .tk .semi :: r) := by simp [fileToks]
    rw [e2]
    exact heading_some (d := reading [] 4 (.tk .lparen :: .name f ::
        (commaNames fs ++ .tk .rparen :: .tk .semi :: r)) .ident none (.name nm)) (d1 := reading [] 4 (.name f ::
        (commaNames fs ++ .tk .rparen :: .tk .semi :: r)) .lparen none (.tk .lparen)) rfl rfl
      (fileList_ok (.tk .semi :: r) fs f .lparen none (.tk .lparen) hf n (by simpa using hl))

/-! ### The declarations of a program -/

/-- The heading, the constants and the variables of a program are read without errors. -/
theorem declarations_ok {P : Source} {t : Tk} (htk : Goon t) {r : List Lx}
    (hr : P.procs.toks ++ .tk .begin_ :: (P.body ++ [.tk .end_, .tk .period]) = .tk t :: r) (hnm : New P.name)
    (hf : ∀ f ∈ P.files, SameName inputName f ∨ SameName outputName f) (hcs : CstsRight [] P.consts)
    (hn : ∀ n ∈ P.consts.map (·.name) ++ P.order.map (·.1), New n)
    (hd : (P.consts.map (·.name) ++ P.order.map (·.1)).Pairwise fun n m => ¬ SameName n m)
    (ht : ∀ g ∈ P.groups, g.Right) (hb : ∀ g ∈ P.groups, g.Bounds (locals 0 P.consts P.groups)) (hs : P.size ≤ 65535) :
    ∃ N, ∀ n, N ≤ n → declarations n P.toks =
      .ok (some (declared 0 4 (cstScope P.consts) P.order r t none (.tk t))) := by
  obtain ⟨N1, hN1⟩ := variablePart_ok (lev := 0) (f := 4) (sc := []) (by simp [AllNew]) htk hcs (by simp) (by simp) hn hd ht
    (fun g hg => by rw [List.nil_append]; exact hb g hg) hs r
    .semi none (.tk .semi)
  refine ⟨N1 + P.files.length, fun n hn => ?_⟩
  unfold declarations
  have h0 : (DS.get ⟨P.toks, .period, none, .tk .period, primed, 4, 0⟩ 0) =
    (reading [] 4 P.toks .period none (.tk .period)).get 0 := by
      simp [reading, table]
  simp only [h0]
  unfold Source.toks
  rw [heading_ok hnm hf (by omega), hr]
  simp only
  have hu : ((reading [] 4 (cstToks P.consts ++ (varToks P.groups ++ .tk t :: r)) .semi none (.tk .semi)).get 0).tok ≠
      .other 0xa8 := by
    obtain ⟨x, t', r', hx, hxt, -, -, -, hx4⟩ := varToks_head P.groups htk r
    rw [hx]
    unfold cstToks
    split
    · rw [List.nil_append, get_any, (hxt _ _).1]
      exact hx4
    · rw [List.cons_append, get_tk]
      show Tk.other 0x84 ≠ _; decide
  rw [if_neg hu, hN1 n (by omega)]
  rfl

end Pas.Src
