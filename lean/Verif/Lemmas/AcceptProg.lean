import Verif.Spec.AcceptProg
import Verif.Lemmas.AcceptStmt
import Verif.Lemmas.AcceptConst

/-! Lemmas for C82: declarations and programs that are accepted. -/
namespace Pas.Accept
open Pas.Comp
open Pas.Names (mapToAlias)

/-! ### What has been read -/

/-- The tokens `xs` have been read, the first of them being the last one read before; behind the end of the text
there are periods. -/
def Ate (d : DS) (xs : List Lx) (d' : DS) : Prop :=
  ∃ k, d.last :: d.rest ++ List.replicate k (.tk .period) = xs ++ d'.last :: d'.rest

theorem ate_get (d : DS) (st : Nat) : Ate d [d.last] (d.get st) := by
  cases h : d.rest with
  | nil => exact ⟨1, by simp [DS.get, h]⟩
  | cons x l => exact ⟨0, by simp [DS.get, h]⟩

theorem Ate.trans {a b c : DS} {xs ys : List Lx} (h : Ate a xs b) (h' : Ate b ys c) : Ate a (xs ++ ys) c := by
  obtain ⟨k, h⟩ := h
  obtain ⟨k', h'⟩ := h'
  refine ⟨k + k', ?_⟩
  rw [List.append_assoc, ← h', ← List.replicate_append_replicate, ← List.append_assoc, h]
  simp

theorem ate_same {d d' : DS} (h : d'.last = d.last) (h' : d'.rest = d.rest) : Ate d [] d' :=
  ⟨0, by simp [h, h']⟩

/-! ### The table -/

/-- A constant as the table has it: the token that a name stands for. -/
def Literal (t : Tk) : Prop := ∃ n, t = .int n ∨ t = .char n ∨ t = .bool n

/-- The constants of the table are literals (or NIL). -/
def SaneSym : Comp.Sym → Prop
  | .const t => Literal t ∨ t = .other 0x96
  | _ => True

def Sane (tab : Env) : Prop := ∀ e ∈ tab, SaneSym e.2

theorem sane_append {a b : Env} : Sane (a ++ b) ↔ Sane a ∧ Sane b := by
  simp only [Sane, List.mem_append]
  exact ⟨fun h => ⟨fun e he => h e (.inl he), fun e he => h e (.inr he)⟩, fun h e he => he.elim (h.1 e) (h.2 e)⟩

theorem sane_take {a : Env} (n : Nat) (h : Sane a) : Sane (a.take n) := fun e he => h e (List.mem_of_mem_take he)
theorem sane_drop {a : Env} (n : Nat) (h : Sane a) : Sane (a.drop n) := fun e he => h e (List.mem_of_mem_drop he)

theorem sane_one {n : List Byte} {s : Comp.Sym} (h : SaneSym s) : Sane [(n, s)] := by
  intro e he
  simp only [List.mem_singleton] at he
  rw [he]; exact h

theorem sane_primed : Sane primed := by
  intro e he
  simp only [primed, List.mem_cons, List.not_mem_nil, or_false] at he
  rcases he with rfl | rfl | rfl | rfl | rfl | rfl | rfl | rfl | rfl | rfl | rfl | rfl | rfl | rfl | rfl | rfl | rfl <;>
    first
    | exact trivial
    | exact .inr rfl
    | exact .inl ⟨_, .inl rfl⟩
    | exact .inl ⟨_, .inr (.inr rfl)⟩

theorem find_sane {tab : Env} {n : List Byte} {st : Nat} {s : Comp.Sym} (h : Sane tab) (hf : find tab n st = some s) :
    SaneSym s := by
  simp only [find, Option.map_eq_some_iff] at hf
  obtain ⟨e, he, rfl⟩ := hf
  exact h e (List.mem_of_mem_drop (List.mem_reverse.mp (List.mem_of_find?_eq_some he)))

/-- Tokens that no name has. -/
def Fixed : Tk → Prop
  | .int _ | .char _ | .bool _ | .file _ | .var _ | .arr _ | .proc _ | .ident => False
  | .other c => c ≠ 0x96 ∧ c ≠ 0x44 ∧ c ≠ 0xa9
  | _ => True

theorem fixed_other {c : Nat} (h : c ≠ 0x96 ∧ c ≠ 0x44 ∧ c ≠ 0xa9) : Fixed (.other c) := h

theorem fixed_tok {tab : Env} {st : Nat} {x : Lx} {t : Tk} (h : Sane tab) (ht : x.tok tab st = t) (hf : Fixed t) :
    x = .tk t := by
  subst ht
  cases x with
  | tk t => rfl
  | var_ => exact absurd rfl hf.2.2
  | name n =>
    exfalso
    simp only [Lx.tok] at hf
    cases hn : find tab (mapToAlias n) st with
    | none => rw [hn] at hf; exact hf
    | some s =>
      rw [hn] at hf
      have hs := find_sane h hn
      cases s with
      | const t =>
        rcases hs with ⟨n, rfl | rfl | rfl⟩ | rfl
        · exact hf
        · exact hf
        · exact hf
        · exact hf.1 rfl
      | type k size => exact hf.2.1 rfl
      | _ => exact hf

theorem var_tok {tab : Env} {st : Nat} {x : Lx} (h : Sane tab) (ht : x.tok tab st = .other 0xa9) :
    x = .var_ ∨ x = .tk (.other 0xa9) := by
  cases x with
  | tk t => exact .inr (congrArg _ ht)
  | var_ => exact .inl rfl
  | name n =>
    exfalso
    simp only [Lx.tok] at ht
    cases hn : find tab (mapToAlias n) st with
    | none => rw [hn] at ht; cases ht
    | some s =>
      rw [hn] at ht
      have hs := find_sane h hn
      cases s with
      | const t =>
        rcases hs with ⟨n, rfl | rfl | rfl⟩ | rfl <;> simp [Sym.tok] at ht
      | _ => simp [Sym.tok, sTYPE] at ht

theorem new_more {env : Env} {x : Lx} (start : Nat) (hs : Sane env) (h : New env 0 x) : New env start x := by
  unfold New at *
  cases x with
  | tk t => exact h
  | var_ => exact h
  | name n =>
    simp only [Lx.tok] at h ⊢
    cases hn : find env (mapToAlias n) 0 with
    | some s =>
      rw [hn] at h
      have := find_sane hs hn
      cases s with
      | const t => rcases this with ⟨n, rfl | rfl | rfl⟩ | rfl <;> cases h
      | _ => cases h
    | none =>
      have : find env (mapToAlias n) start = none := by
        simp only [find, List.drop_zero, Option.map_eq_none_iff, List.find?_eq_none, List.mem_reverse] at hn ⊢
        exact fun e he => hn e (List.mem_of_mem_drop he)
      rw [this]

/-! ### The state of the reader -/

/-- The last token has been read with some table. -/
structure Good (d : DS) : Prop where
  sane : Sane d.tab
  read : ∃ tab st, Sane tab ∧ d.tok = d.last.tok tab st

/-- The last token has been read with the table as it is. -/
structure Now (d : DS) : Prop where
  sane : Sane d.tab
  tok : d.tok = d.last.tok d.tab 0
  ptr : d.ptr = d.last.ptr d.tab 0

theorem Now.good {d : DS} (h : Now d) : Good d := ⟨h.sane, _, _, h.sane, h.tok⟩

theorem now_get {d : DS} (h : Sane d.tab) : Now (d.get 0) := ⟨h, rfl, rfl⟩
theorem good_get {d : DS} (st : Nat) (h : Sane d.tab) : Good (d.get st) := ⟨h, _, _, h, rfl⟩

theorem Good.fixed {d : DS} {t : Tk} (h : Good d) (ht : d.tok = t) (hf : Fixed t) : d.last = .tk t := by
  obtain ⟨tab, st, hs, hr⟩ := h.read
  exact fixed_tok hs (hr.symm.trans ht) hf

theorem Good.ate {d : DS} {t : Tk} (h : Good d) (ht : d.tok = t) (hf : Fixed t) (st : Nat) :
    Ate d [.tk t] (d.get st) := by
  have := ate_get d st
  rwa [h.fixed ht hf] at this

@[simp] theorem get_tab (d : DS) (st : Nat) : (d.get st).tab = d.tab := rfl
@[simp] theorem get_errs (d : DS) (st : Nat) : (d.get st).errs = d.errs := rfl
@[simp] theorem err_tab (d : DS) : d.err.tab = d.tab := rfl
@[simp] theorem err_errs (d : DS) : d.err.errs = d.errs + 1 := rfl

theorem expect_tab (d : DS) (t : Tk) : (d.expect t).tab = d.tab := by
  unfold DS.expect; split <;> rfl

theorem expect_le (d : DS) (t : Tk) : d.errs ≤ (d.expect t).errs := by
  unfold DS.expect; split <;> simp

theorem expect_eq {d : DS} {t : Tk} (h : (d.expect t).errs = d.errs) : d.tok = t ∧ d.expect t = d.get 0 := by
  unfold DS.expect at h ⊢
  split at h
  · rename_i ht; exact ⟨ht, by rw [if_pos ht]⟩
  · simp at h

/-! ### Types -/

theorem indexType_ok {d d' : DS} {i : Option (Nat × Nat)} (h : indexType d = some (i, d')) :
    d.errs ≤ d'.errs ∧ d'.tab = d.tab ∧ (d'.errs = d.errs → Now d → ∃ x y lo hi, i = some (lo.toNat, hi.toNat) ∧
      x.tok d.tab 0 = .int lo ∧ y.tok d.tab 0 = .int hi ∧ lo.toNat ≤ hi.toNat ∧ Now d' ∧
      Ate d [x, .tk (.other 0x0b), y] d') := by
  unfold indexType at h
  cases ht : d.tok with
  | int lo =>
    rw [ht] at h
    dsimp only at h
    split at h
    · rename_i hdots
      cases ht2 : ((d.get 0).get 0).tok with
      | int hi =>
        rw [ht2] at h
        dsimp only at h
        split at h
        · cases h
        · split at h
          · cases h; simp
          · rename_i hle
            cases h
            refine ⟨Nat.le_refl _, rfl, fun _ hn => ?_⟩
            have n1 := now_get hn.sane
            have n2 : Now ((d.get 0).get 0) := now_get (d := d.get 0) hn.sane
            refine ⟨d.last, ((d.get 0).get 0).last, lo, hi, rfl, hn.tok.symm.trans ht,
              n2.tok.symm.trans ht2, by omega, now_get hn.sane, ?_⟩
            exact ((ate_get d 0).trans (n1.good.ate hdots (fixed_other (by decide)) 0)).trans (ate_get _ 0)
      | _ => rw [ht2] at h; cases h; simp
    · cases h; simp
  | lparen => rw [ht] at h; cases h; simp
  | _ => rw [ht] at h; cases h

theorem indexTypes_ok : ∀ {n : Nat} {d d' : DS} {l : List (Nat × Nat)}, indexTypes n d = some (l, d') →
    d.errs ≤ d'.errs ∧ d'.tab = d.tab ∧ (d'.errs = d.errs → Sane d.tab → Now d' ∧ ∃ xs, Ate d (d.last :: xs) d' ∧ Ranges d.tab xs l)
  | 0, _, _, _, h => nomatch h
  | n + 1, d, d', l, h => by
    simp only [indexTypes] at h
    obtain ⟨⟨i, d1⟩, h1, h2⟩ := Option.bind_eq_some_iff.mp h
    obtain ⟨le1, tab1, ok1⟩ := indexType_ok h1
    simp only [get_errs, get_tab] at le1 tab1 ok1
    dsimp only at h2
    split at h2
    · rename_i hc
      obtain ⟨⟨l', d2⟩, h3, h4⟩ := Option.bind_eq_some_iff.mp h2
      cases h4
      obtain ⟨le2, tab2, ok2⟩ := indexTypes_ok h3
      dsimp only
      refine ⟨Nat.le_trans le1 le2, tab2.trans tab1, fun he hs => ?_⟩
      obtain ⟨x, y, lo, hi, rfl, hx, hy, hle, now1, a1⟩ := ok1 (by omega) (now_get hs)
      obtain ⟨now2, xs, a2, r⟩ := ok2 (by omega) now1.sane
      rw [now1.good.fixed hc trivial] at a2
      rw [tab1] at r
      refine ⟨now2, x :: .tk (.other 0x0b) :: y :: .tk .comma :: xs, ?_, .more hx hy hle r⟩
      have := ((ate_get d 0).trans a1).trans a2
      simpa using this
    · obtain ⟨⟨l', d2⟩, h3, h4⟩ := Option.bind_eq_some_iff.mp h2
      cases h3
      cases h4
      refine ⟨le1, tab1, fun he hs => ?_⟩
      obtain ⟨x, y, lo, hi, rfl, hx, hy, hle, now1, a1⟩ := ok1 he (now_get hs)
      refine ⟨now1, [x, .tk (.other 0x0b), y], ?_, by simpa using Ranges.one hx hy hle⟩
      simpa using (ate_get d 0).trans a1

theorem indexUnits_low (u : Nat) : ∀ l, (indexUnits u l).1.map (·.1) = l.map (·.1)
  | [] => rfl
  | (lo, hi) :: l => by simp only [indexUnits, List.map_cons]; rw [indexUnits_low _ l]

/-- The type as the specification has it. -/
def Denotes (t : Denoted) (k : Kind) (rs : List (Nat × Nat)) : Prop :=
  t.kind = k ∧ match t.dims with
    | none => rs = []
    | some dims => rs ≠ [] ∧ dims.map (·.1) = rs.map (·.1)

theorem Denotes.holds {t : Denoted} {k : Kind} {rs : List (Nat × Nat)} (h : Denotes t k rs) (lev : Nat) (off : Int) :
    Holds lev k rs (t.sym lev off) := by
  obtain ⟨h1, h2⟩ := h
  unfold Denoted.sym
  cases hd : t.dims with
  | none => rw [hd] at h2; exact ⟨h1, rfl, h2⟩
  | some dims => rw [hd] at h2; exact ⟨h1, rfl, h2.1, h2.2⟩

theorem isType_ptr {d : DS} {k : Kind} {size : Nat} (hn : Now d) (h : d.ptr = some (.type (some k) size)) :
    IsType d.tab d.last k := ⟨size, hn.ptr.symm.trans h⟩

theorem arrayType_ok {n : Nat} {d d' : DS} {t : Denoted} (h0 : d.tok = .other 0x81)
    (h : arrayType n d = some (t, d')) :
    d.errs ≤ d'.errs ∧ d'.tab = d.tab ∧ (d'.errs = d.errs → Now d → Now d' ∧ ∃ xs k rs, Ate d xs d' ∧ TypeOf d.tab xs k rs ∧
      Denotes t k rs) := by
  unfold arrayType at h
  obtain ⟨⟨l, d1⟩, h1, h2⟩ := Option.bind_eq_some_iff.mp h
  dsimp only at h2
  generalize hb : (if (d.get 0).tok = .lbracket then d.get 0 else (d.get 0).err) = b at h1
  have hbe : d.errs ≤ b.errs ∧ b.tab = d.tab ∧ (b.errs = d.errs → (d.get 0).tok = .lbracket ∧ b = d.get 0) := by
    rw [← hb]; split
    · rename_i h; exact ⟨Nat.le_refl _, rfl, fun _ => ⟨h, rfl⟩⟩
    · simp
  obtain ⟨leb, tabb, okb⟩ := hbe
  obtain ⟨le1, tab1, ok1⟩ := indexTypes_ok h1
  split at h2
  · cases h2
  · rename_i hl
    generalize he1 : d1.expect .rbracket = e1 at h2
    generalize he2 : e1.expect .of_ = e2 at h2
    have le2 : d1.errs ≤ e1.errs := he1 ▸ expect_le _ _
    have le3 : e1.errs ≤ e2.errs := he2 ▸ expect_le _ _
    have tab2 : e1.tab = d1.tab := he1 ▸ expect_tab _ _
    have tab3 : e2.tab = e1.tab := he2 ▸ expect_tab _ _
    have tab4 : e2.tab = d.tab := by rw [tab3, tab2, tab1, tabb]
    split at h2
    · rename_i k size hp
      cases h2
      refine ⟨by simp only [get_errs]; omega, tab4, fun he hn => ?_⟩
      simp only [get_errs] at he
      obtain ⟨hlb, rfl⟩ := okb (by omega)
      obtain ⟨now1, xs, a1, r⟩ := ok1 (by simp only [get_errs] at *; omega) hn.sane
      simp only [get_tab, get_errs] at *
      have e1e : (d1.expect .rbracket).errs = d1.errs := by rw [he1]; omega
      obtain ⟨t1, q1⟩ := expect_eq e1e
      rw [he1] at q1
      have e2e : (e1.expect .of_).errs = e1.errs := by rw [he2]; omega
      obtain ⟨t2, q2⟩ := expect_eq e2e
      rw [he2] at q2
      have hs1 : Sane d1.tab := now1.sane
      have ne1 : Now e1 := q1 ▸ now_get hs1
      have ne2 : Now e2 := q2 ▸ now_get ne1.sane
      refine ⟨now_get ne2.sane, .tk (.other 0x81) :: .tk .lbracket :: (xs ++ [.tk .rbracket, .tk .of_, e2.last]), k, l,
        ?_, .array r (tab4 ▸ isType_ptr ne2 hp), ⟨rfl, hl, indexUnits_low _ _⟩⟩
      have g0 : Now (d.get 0) := now_get hn.sane
      rw [g0.good.fixed hlb trivial] at a1
      have A1 := (hn.good.ate h0 (fixed_other (by decide)) 0).trans a1
      have A2 := A1.trans (q1 ▸ now1.good.ate t1 trivial 0)
      have A3 := A2.trans (q2 ▸ ne1.good.ate t2 trivial 0)
      have A4 := A3.trans (ate_get e2 0)
      simpa using A4
    · cases h2

theorem typeDenoter_ok {n : Nat} {d d' : DS} {t : Denoted} (h : typeDenoter n d = .ok (some (t, d'))) :
    d.errs ≤ d'.errs ∧ d'.tab = d.tab ∧ (d'.errs = d.errs → Now d → Now d' ∧ ∃ xs k rs, Ate d xs d' ∧ TypeOf d.tab xs k rs ∧
      Denotes t k rs) := by
  unfold typeDenoter at h
  split at h
  · rename_i k size hp
    dsimp only at h
    split at h
    · cases h
    · cases h
      exact ⟨Nat.le_refl _, rfl, fun _ hn => ⟨now_get hn.sane, [d.last], k, [], ate_get d 0, .simple (isType_ptr hn hp), rfl, rfl⟩⟩
  · cases h
  · cases ht : d.tok with
    | other c =>
      rw [ht] at h
      dsimp only at h
      split at h
      · rename_i hc
        rw [hc] at ht
        simp only [Res.ok.injEq] at h
        cases ha : arrayType n d with
        | none => rw [ha] at h; cases h
        | some p =>
          obtain ⟨t', d1⟩ := p
          rw [ha] at h
          dsimp only at h
          split at h
          · cases h
          · cases h
            exact arrayType_ok ht ha
      · cases h
    | _ => rw [ht] at h; cases h

/-! ### Variables -/

theorem holds_sane {lev : Nat} {k : Kind} {rs : List (Nat × Nat)} : ∀ {s : Comp.Sym}, Holds lev k rs s → SaneSym s
  | .const _, h => h.elim
  | .type _ _, _ | .file _, _ | .var _, _ | .arr _, _ | .proc _, _ => trivial

theorem Adds.sane {lev : Nat} {k : Kind} {rs : List (Nat × Nat)} {ns : List (List Byte)} {env env' : Env}
    (h : Adds lev k rs ns env env') (hs : Sane env) : Sane env' := by
  obtain ⟨syms, rfl, _, h3⟩ := h
  exact sane_append.mpr ⟨hs, fun e he => holds_sane (h3 e he)⟩

/-- What a declaration of variables does when there is no error. -/
def Declared (lev start : Nat) (d : DS) (o : Option Denoted) (d' : DS) : Prop :=
  Good d' ∧ ∃ xs ns ts k rs t, o = some t ∧ Denotes t k rs ∧ NewNames d.tab start xs ns ∧ TypeOf d.tab ts k rs ∧
    Adds lev k rs ns d.tab d'.tab ∧ Ate d (xs ++ .tk .colon :: ts) d'

theorem declareVar_ok {lev start : Nat} : ∀ {n : Nat} {d d' : DS} {o : Option Denoted},
    declareVar lev start n d = .ok (some (o, d')) → d.errs ≤ d'.errs ∧ (d'.errs = d.errs → Sane d.tab →
      New d.tab start d.last → Declared lev start d o d')
  | 0, _, _, _, h => by cases h
  | n + 1, d, d', o, h => by
    simp only [declareVar] at h
    split at h
    · rename_i hc
      split at h
      · rename_i hi
        obtain ⟨r, h1, h2⟩ := Res.bind_eq_ok.mp h
        match r, h1, h2 with
        | some (some t, d1), h1, h2 =>
          cases h2
          obtain ⟨le1, ok1⟩ := declareVar_ok h1
          refine ⟨le1, fun he hs hnew => ?_⟩
          obtain ⟨g1, xs, ns, ts, k, rs, t', ht, hd, hns, hts, ⟨syms, e1, e2, e3⟩, a1⟩ := ok1 he hs hi
          cases ht
          obtain ⟨tab, st, hst, hr⟩ := g1.read
          have add : Adds lev k rs (d.last.string :: ns) d.tab (allocate lev d.last.string t d1).tab := by
            refine ⟨syms ++ [(d.last.string, t.sym lev ((if t.size = 1 then d1.dstack else alignUp d1.dstack) % 65536 : Nat))], ?_, ?_, ?_⟩
            · simp only [allocate]; rw [e1]; simp
            · simp [e2]
            · intro e he
              rcases List.mem_append.mp he with he | he
              · exact e3 e he
              · simp only [List.mem_singleton] at he
                rw [he]; exact hd.holds _ _
          refine ⟨⟨add.sane hs, tab, st, hst, hr⟩, d.last :: .tk .comma :: xs, _, ts, k, rs, t, rfl, hd,
            .more hnew hns, hts, add, ?_⟩
          have A := ((ate_get d 0).trans ((now_get hs).good.ate hc trivial start)).trans
            (a1.trans (ate_same (d' := allocate lev d.last.string t d1) rfl rfl))
          simpa using A
        | some (none, d1), h1, h2 =>
          cases h2
          obtain ⟨le1, ok1⟩ := declareVar_ok h1
          refine ⟨le1, fun he hs hnew => ?_⟩
          obtain ⟨g1, xs, ns, ts, k, rs, t', ht, _⟩ := ok1 he hs hi
          cases ht
        | none, h1, h2 => cases h2
      · cases h; simp
    · obtain ⟨r, h1, h2⟩ := Res.bind_eq_ok.mp h
      match r, h1, h2 with
      | none, h1, h2 => cases h2
      | some (t, d1), h1, h2 =>
        cases h2
        obtain ⟨le1, tab1, ok1⟩ := typeDenoter_ok h1
        have le0 := expect_le (d.get 0) .colon
        rw [get_errs] at le0
        refine ⟨Nat.le_trans le0 le1, fun he hs hnew => ?_⟩
        have he' : d1.errs = d.errs := he
        obtain ⟨q1, q2⟩ := expect_eq (d := d.get 0) (t := .colon) (by rw [get_errs]; omega)
        rw [q2] at ok1 tab1
        obtain ⟨now1, ts, k, rs, a1, hts, hd⟩ := ok1 he' (now_get (d := d.get 0) hs)
        have add : Adds lev k rs [d.last.string] d.tab (allocate lev d.last.string t d1).tab := by
          refine ⟨[(d.last.string, t.sym lev ((if t.size = 1 then d1.dstack else alignUp d1.dstack) % 65536 : Nat))], ?_, rfl, ?_⟩
          · simp only [allocate]; rw [tab1]; rfl
          · intro e he
            simp only [List.mem_singleton] at he
            rw [he]; exact hd.holds _ _
        refine ⟨⟨add.sane hs, _, _, now1.sane, now1.tok⟩, [d.last], _, ts, k, rs, t, rfl, hd, .one hnew, hts, add, ?_⟩
        have A := ((ate_get d 0).trans ((now_get hs).good.ate q1 trivial 0)).trans
          (a1.trans (ate_same (d' := allocate lev d.last.string t d1) rfl rfl))
        simpa using A

/-- Something has been read that changes the table, unless there was an error. -/
structure Step (d d' : DS) (Q : List Lx → Env → Prop) : Prop where
  le : d.errs ≤ d'.errs
  ok : d'.errs = d.errs → Good d → Good d' ∧ ∃ xs, Ate d xs d' ∧ Q xs d'.tab

theorem variableGroup_ok {lev start : Nat} : ∀ {n : Nat} {d d' : DS}, variableGroup lev start n d = .ok (some d') →
    (d.tok = .ident → Sane d.tab → New d.tab start d.last) → Step d d' (Vars lev start d.tab)
  | 0, _, _, h, _ => by cases h
  | n + 1, d, d', h, hnew => by
    simp only [variableGroup] at h
    split at h
    · rename_i hi
      obtain ⟨r, h1, h2⟩ := Res.bind_eq_ok.mp h
      match r, h1, h2 with
      | none, h1, h2 => cases h2
      | some (o, d1), h1, h2 =>
        obtain ⟨le1, ok1⟩ := declareVar_ok h1
        dsimp only at h2
        split at h2
        · rename_i hsemi
          have S := variableGroup_ok h2 (fun hi hs => new_more start hs hi)
          refine ⟨Nat.le_trans le1 S.le, fun he hg => ?_⟩
          have l2 := S.le
          rw [get_errs] at l2
          obtain ⟨g1, xs, ns, ts, k, rs, t, rfl, hd, hns, hts, add, a1⟩ := ok1 (by omega) hg.sane (hnew hi hg.sane)
          obtain ⟨g2, ys, a2, vs⟩ := S.ok (by rw [get_errs]; omega) (good_get 0 g1.sane)
          refine ⟨g2, xs ++ .tk .colon :: (ts ++ .tk .semi :: ys), ?_, .more hns hts add vs⟩
          have A := (a1.trans (g1.ate hsemi trivial 0)).trans a2
          simpa using A
        · cases h2
          refine ⟨le1, fun he hg => ?_⟩
          obtain ⟨g1, xs, ns, ts, k, rs, t, rfl, hd, hns, hts, add, a1⟩ := ok1 he hg.sane (hnew hi hg.sane)
          exact ⟨g1, _, a1, .last hns hts add⟩
    · cases h
      exact ⟨Nat.le_refl _, fun _ hg => ⟨hg, [], ate_same rfl rfl, .none⟩⟩

/-! ### Constants -/

theorem left_ate {d : DS} {y : Lx} {l : List Lx} (hr : d.rest = y :: l) (k : Nat) (hk : k ≤ l.length) :
    Ate d (d.last :: y :: l.take (l.length - k)) (d.left k) := by
  have e : (d.last :: d.rest).drop (d.rest.length + 1 - k) = l.drop (l.length - k) := by
    rw [hr, show (y :: l).length + 1 - k = (l.length - k) + 1 + 1 by simp only [List.length_cons]; omega]; rfl
  have this := List.take_append_drop (l.length - k) l
  cases hl : l.drop (l.length - k) with
  | nil =>
    rw [hl, List.append_nil] at this
    refine ⟨1, ?_⟩
    simp only [DS.left, e, hl, this]
    simp [hr]
  | cons x m =>
    rw [hl] at this
    refine ⟨0, ?_⟩
    simp only [DS.left, e, hl]
    simp [hr, this]

theorem now_left {d : DS} (k : Nat) (h : Sane d.tab) : Now (d.left k) := ⟨h, rfl, rfl⟩

theorem constToken_const {k : Const.KK} {v : BitVec 32} {t : Tk} (h : Const.constToken k v = some t) :
    Literal t ∧ ConstTk k v t := by
  cases k <;> cases h
  · exact ⟨⟨_, .inl rfl⟩, .int⟩
  · exact ⟨⟨_, .inr (.inl rfl)⟩, .char⟩
  · exact ⟨⟨_, .inr (.inr rfl)⟩, .bool⟩

theorem defineConst_ok {n : Nat} {d d' : DS} (h : defineConst n d = .ok (some d')) : d'.errs = d.errs ∧ (Sane d.tab →
    Good d' ∧ ∃ es t, IsConst d.tab es t ∧ d'.tab = d.tab ++ [(d.last.string, .const t)] ∧
      Ate d (d.last :: .tk .eq :: es) d') := by
  unfold defineConst at h
  split at h
  · rename_i k v s hd
    split at h
    · cases h
    · rename_i hub
      split at h
      · cases h
      · rename_i hs
        split at h
        · rename_i t ht
          cases h
          refine ⟨rfl, fun hsane => ?_⟩
          obtain ⟨hl, hc⟩ := constToken_const ht
          obtain ⟨h1, ts, h2, hf⟩ := Const.declare_read hd (by simp only [ne_eq, Decidable.not_not] at hs; exact hs)
            (by simpa using hub)
          simp only [Const.KS.next, Const.KS.tok, DS.body, List.tail_cons] at h1 h2
          cases hr : d.rest with
          | nil => rw [hr] at h1; cases h1
          | cons y l =>
            rw [hr] at h1 h2
            simp only [List.map_cons, List.headD_cons, List.tail_cons] at h1 h2
            have hy := fixed_tok hsane h1 trivial
            subst hy
            have hlen : l.length = ts.length + s.toks.length := by simpa using congrArg List.length h2
            have a := left_ate hr s.toks.length (by omega)
            have nl := now_left s.toks.length hsane
            refine ⟨⟨sane_append.mpr ⟨hsane, sane_one (.inl hl)⟩, _, _, hsane, nl.tok⟩, _, t, ⟨k, v, ?_, hc⟩, rfl, a⟩
            rw [List.map_take, h2, show l.length - s.toks.length = ts.length by omega, List.take_left]
            exact hf
        · cases h
  · split at h <;> cases h
  · cases h

theorem constantGroup_ok {start : Nat} : ∀ {n : Nat} {d d' : DS}, constantGroup n d = .ok (some d') →
    (d.tok = .ident → Sane d.tab → New d.tab start d.last) → Step d d' (ConstDefs start d.tab)
  | 0, _, _, h, _ => by cases h
  | n + 1, d, d', h, hnew => by
    simp only [constantGroup] at h
    split at h
    · rename_i hi
      obtain ⟨r, h1, h2⟩ := Res.bind_eq_ok.mp h
      match r, h1, h2 with
      | none, h1, h2 => cases h2
      | some d1, h1, h2 =>
        obtain ⟨e1, ok1⟩ := defineConst_ok h1
        dsimp only at h2
        split at h2
        · rename_i hsemi
          have S := constantGroup_ok (start := start) h2 (fun hi hs => new_more start hs hi)
          have l2 := S.le
          rw [get_errs] at l2
          refine ⟨by omega, fun he hg => ?_⟩
          obtain ⟨g1, es, t, hc, tab1, a1⟩ := ok1 hg.sane
          obtain ⟨g2, ys, a2, vs⟩ := S.ok (by rw [get_errs]; omega) (good_get 0 g1.sane)
          rw [get_tab, tab1] at vs
          refine ⟨g2, d.last :: .tk .eq :: (es ++ .tk .semi :: ys), ?_, .more (hnew hi hg.sane) hc vs⟩
          have A := (a1.trans (g1.ate hsemi trivial 0)).trans a2
          simpa using A
        · cases h2
          refine ⟨Nat.le_of_eq e1.symm, fun he hg => ?_⟩
          obtain ⟨g1, es, t, hc, tab1, a1⟩ := ok1 hg.sane
          rw [tab1]
          exact ⟨g1, _, a1, .last (hnew hi hg.sane) hc⟩
    · cases h
      exact ⟨Nat.le_refl _, fun _ hg => ⟨hg, [], ate_same rfl rfl, .none⟩⟩

theorem Good.var {d : DS} (h : Good d) (ht : d.tok = .other 0xa9) : d.last = .var_ ∨ d.last = .tk (.other 0xa9) := by
  obtain ⟨tab, st, hs, hr⟩ := h.read
  exact var_tok hs (hr.symm.trans ht)

theorem variablePart_ok {lev n : Nat} {d d' : DS} (h : variablePart lev n d = .ok (some d')) :
    Step d d' (Decls lev d.tab.length d.tab) := by
  simp only [variablePart] at h
  split at h
  · cases h
  · obtain ⟨r, h1, h2⟩ := Res.bind_eq_ok.mp h
    match r, h1, h2 with
    | none, h1, h2 => cases h2
    | some d1, h1, h2 =>
      have C : (d1 = d) ∨ (d.tok = .other 0x84 ∧ Step (d.get d.tab.length) d1 (ConstDefs d.tab.length d.tab)) := by
        unfold constantPart at h1
        split at h1
        · rename_i hc; exact .inr ⟨hc, constantGroup_ok h1 (fun hi _ => hi)⟩
        · cases h1; exact .inl rfl
      dsimp only at h2
      split at h2
      · cases h2
      · split at h2
        · rename_i hv
          have V := variableGroup_ok (start := d.tab.length) h2 (fun hi _ => hi)
          have lv := V.le
          rw [get_errs] at lv
          rcases C with rfl | ⟨hc, S⟩
          · refine ⟨lv, fun he hg => ?_⟩
            obtain ⟨g2, ys, a2, vs⟩ := V.ok he (good_get _ hg.sane)
            exact ⟨g2, _, (ate_get d1 _).trans a2, .var (hg.var hv) vs⟩
          · have ls := S.le
            rw [get_errs] at ls
            refine ⟨by omega, fun he hg => ?_⟩
            obtain ⟨g1, xs, a1, cs⟩ := S.ok (by rw [get_errs]; omega) (good_get _ hg.sane)
            obtain ⟨g2, ys, a2, vs⟩ := V.ok (by rw [get_errs]; omega) (good_get _ g1.sane)
            refine ⟨g2, .tk (.other 0x84) :: (xs ++ d1.last :: ys), ?_, .both cs (g1.var hv) vs⟩
            have A := (((hg.ate hc (fixed_other (by decide)) _).trans a1).trans (ate_get d1 d.tab.length)).trans a2
            simpa using A
        · cases h2
          rcases C with rfl | ⟨hc, S⟩
          · exact ⟨Nat.le_refl _, fun _ hg => ⟨hg, [], ate_same rfl rfl, .none⟩⟩
          · refine ⟨S.le, fun he hg => ?_⟩
            obtain ⟨g1, xs, a1, cs⟩ := S.ok he (good_get _ hg.sane)
            exact ⟨g1, _, (hg.ate hc (fixed_other (by decide)) _).trans a1, .const cs⟩

/-! ### Parameters -/

theorem modify_mid {α : Type} (f : α → α) (a : α) (r : List α) : ∀ l : List α,
    (l ++ a :: r).modify l.length f = l ++ f a :: r
  | [] => rfl
  | x :: l => by
    show x :: (l ++ a :: r).modify l.length f = _
    rw [modify_mid f a r l]; rfl

theorem withParms_cons (lev : Nat) (k : Kind) (env : Env) (n : List Byte) (ns : List (List Byte)) :
    withParms lev k env (n :: ns) = withParms lev k (env ++ [(n, .var ⟨k, lev, 0⟩)]) ns := by
  simp [withParms]

theorem sane_with {lev : Nat} {k : Kind} {env : Env} {ns : List (List Byte)} (h : Sane env) :
    Sane (withParms lev k env ns) := by
  refine sane_append.mpr ⟨h, fun e he => ?_⟩
  obtain ⟨n, _, rfl⟩ := List.mem_map.mp he
  exact trivial

theorem setKind_tab (d : DS) (env : Env) (lev : Nat) (k k' : Kind) (n : List Byte) (r : Env)
    (h : d.tab = env ++ (n, .var ⟨k', lev, 0⟩) :: r) :
    (setKind env.length k d).tab = env ++ (n, .var ⟨k, lev, 0⟩) :: r := by
  simp only [setKind, h]
  rw [modify_mid]

theorem declareParm_ok {lev start : Nat} : ∀ {n : Nat} {d d' : DS} {o : Option Kind},
    declareParm lev start n d = .ok (some (o, d')) → d.errs ≤ d'.errs ∧ (d'.errs = d.errs → Sane d.tab →
      (d.tok = .ident → New d.tab start d.last) → Good d' ∧ ∃ xs ns x k, o = some k ∧
        ParmNames lev start d.tab xs ns ∧ IsType (withParms lev .int d.tab ns) x k ∧
        d'.tab = withParms lev k d.tab ns ∧ Ate d (xs ++ [.tk .colon, x]) d')
  | 0, _, _, _, h => by cases h
  | n + 1, d, d', o, h => by
    simp only [declareParm] at h
    split at h
    · cases h; simp
    · rename_i hi
      simp only [ne_eq, Decidable.not_not] at hi
      generalize hd1 : ({ d with tab := d.tab ++ [(d.last.string, Comp.Sym.var ⟨.int, lev, 0⟩)] } : DS) = d1 at h
      have t1 : d1.tab = d.tab ++ [(d.last.string, .var ⟨.int, lev, 0⟩)] := hd1 ▸ rfl
      have e1 : d1.errs = d.errs := hd1 ▸ rfl
      have a1 : Ate d [] d1 := hd1 ▸ ate_same rfl rfl
      have l1 : d1.last = d.last := hd1 ▸ rfl
      have s1 : Sane d.tab → Sane d1.tab := fun hs => t1 ▸ sane_append.mpr ⟨hs, sane_one trivial⟩
      split at h
      · rename_i hc
        obtain ⟨r, h1, h2⟩ := Res.bind_eq_ok.mp h
        match r, h1, h2 with
        | none, h1, h2 => cases h2
        | some (none, d2), h1, h2 => cases h2
        | some (some k, d2), h1, h2 =>
          cases h2
          obtain ⟨le2, ok2⟩ := declareParm_ok h1
          simp only [get_errs, e1] at le2 ok2
          refine ⟨le2, fun he hs hnew => ?_⟩
          obtain ⟨g2, xs, ns, x, k', hk, hns, hx, tab2, a2⟩ := ok2 he (s1 hs) (fun h => h)
          cases hk
          simp only [get_tab, t1] at hns hx tab2
          have tab3 : (setKind d.tab.length k d2).tab = withParms lev k d.tab (d.last.string :: ns) :=
            setKind_tab d2 d.tab lev k .int d.last.string _ (by rw [tab2]; simp [withParms])
          obtain ⟨tab, st, hst, hr⟩ := g2.read
          refine ⟨⟨tab3 ▸ sane_with hs, tab, st, hst, hr⟩, d.last :: .tk .comma :: xs, d.last.string :: ns, x, k, rfl,
            .more (hnew hi) hns, withParms_cons _ _ _ _ _ ▸ hx, tab3, ?_⟩
          have A := ((a1.trans (ate_get d1 0)).trans ((now_get (s1 hs)).good.ate hc trivial start)).trans
            (a2.trans (ate_same (d' := setKind d.tab.length k d2) rfl rfl))
          rw [l1] at A
          simpa using A
      · have le2 := expect_le (d1.get 0) .colon
        have tb2 := expect_tab (d1.get 0) .colon
        rw [get_errs, e1] at le2
        rw [get_tab] at tb2
        split at h
        · rename_i k size hp
          cases h
          refine ⟨le2, fun he hs hnew => ?_⟩
          have he' : ((d1.get 0).expect .colon).errs = (d1.get 0).errs := by rw [get_errs, e1]; exact he
          obtain ⟨q1, q2⟩ := expect_eq he'
          rw [q2] at hp ⊢
          have n2 : Now ((d1.get 0).get 0) := now_get (d := d1.get 0) (s1 hs)
          have ty := isType_ptr n2 hp
          simp only [get_tab] at ty
          rw [t1] at ty
          have tab3 : (setKind d.tab.length k (((d1.get 0).get 0).get 0)).tab = withParms lev k d.tab [d.last.string] :=
            setKind_tab _ d.tab lev k .int d.last.string [] (by simp only [get_tab]; exact t1)
          refine ⟨⟨tab3 ▸ sane_with hs, _, _, s1 hs, rfl⟩, [d.last], [d.last.string], _, k, rfl, .one (hnew hi), ty, tab3, ?_⟩
          have A := (((a1.trans (ate_get d1 0)).trans ((now_get (s1 hs)).good.ate q1 trivial 0)).trans
            (ate_get _ 0)).trans (ate_same (d' := setKind d.tab.length k (((d1.get 0).get 0).get 0)) rfl rfl)
          rw [l1] at A
          simpa using A
        · cases h
        · cases h

/-- The parameters as variables, before they have a place. -/
def parmTab (lev : Nat) (ps : List (List Byte × Kind)) : Env := ps.map fun p => (p.1, Sym.var ⟨p.2, lev, 0⟩)

theorem with_parmTab (lev : Nat) (k : Kind) (env : Env) (ns : List (List Byte)) :
    withParms lev k env ns = env ++ parmTab lev (ns.map (·, k)) := by
  simp [withParms, parmTab]

theorem formalParms_ok {lev start : Nat} : ∀ {n : Nat} {d d' : DS}, formalParms lev start n d = .ok (some d') →
    d.errs ≤ d'.errs ∧ (d'.errs = d.errs → Sane d.tab → Good d' ∧ ∃ xs ps, Parms lev start d.tab xs ps ∧
      Ate d (d.last :: xs) d' ∧ d'.tab = d.tab ++ parmTab lev ps)
  | 0, _, _, h => by cases h
  | n + 1, d, d', h => by
    simp only [formalParms] at h
    split at h
    · cases h
    · obtain ⟨r, h1, h2⟩ := Res.bind_eq_ok.mp h
      match r, h1, h2 with
      | none, h1, h2 => cases h2
      | some (o, d1), h1, h2 =>
        obtain ⟨le1, ok1⟩ := declareParm_ok h1
        simp only [get_errs, get_tab] at le1 ok1
        dsimp only at h2
        split at h2
        · rename_i hsemi
          obtain ⟨le2, ok2⟩ := formalParms_ok h2
          refine ⟨Nat.le_trans le1 le2, fun he hs => ?_⟩
          obtain ⟨g1, xs, ns, x, k, rfl, hns, hx, tab1, a1⟩ := ok1 (by omega) hs (fun h => h)
          obtain ⟨g2, ys, ps, hps, a2, tab2⟩ := ok2 (by omega) g1.sane
          rw [tab1] at hps
          refine ⟨g2, xs ++ .tk .colon :: x :: .tk .semi :: ys, ns.map (·, k) ++ ps, .more hns hx hps, ?_, ?_⟩
          · rw [g1.fixed hsemi trivial] at a2
            have A := ((ate_get d start).trans a1).trans a2
            simpa using A
          · rw [tab2, tab1, with_parmTab]; simp [parmTab]
        · cases h2
          refine ⟨le1, fun he hs => ?_⟩
          obtain ⟨g1, xs, ns, x, k, rfl, hns, hx, tab1, a1⟩ := ok1 he hs (fun h => h)
          refine ⟨g1, xs ++ [.tk .colon, x], ns.map (·, k), .one hns hx, ?_, by rw [tab1, with_parmTab]⟩
          have A := (ate_get d start).trans a1
          simpa using A

theorem parmKinds_tab (lev : Nat) : ∀ ps : List (List Byte × Kind), parmKinds (parmTab lev ps) = ps.map (·.2)
  | [] => rfl
  | p :: ps => by
    have := parmKinds_tab lev ps
    simp only [parmKinds, parmTab] at this ⊢
    simp only [List.map_cons, List.filterMap_cons]
    rw [this]

theorem placeParms_syms (lev : Nat) : ∀ ps : List (List Byte × Kind), ParmSyms lev ps (placeParms (parmTab lev ps))
  | [] => .nil
  | p :: ps => .cons (placeParms_syms lev ps)

theorem parmSyms_sane {lev : Nat} {ps : List (List Byte × Kind)} {syms : Env} (h : ParmSyms lev ps syms) : Sane syms := by
  induction h with
  | nil => exact fun e he => nomatch he
  | cons _ ih =>
    intro e he
    rcases List.mem_cons.mp he with rfl | he
    · exact trivial
    · exact ih e he

theorem formalList_ok {lev label n : Nat} {name : List Byte} {d d' : DS}
    (h : formalParameterList lev name label n d = .ok (some d')) :
    d.errs ≤ d'.errs ∧ (d'.errs = d.errs → Good d → ∀ env q, d.tab = env ++ [(name, .proc q)] →
      Good d' ∧ ∃ hs ps syms, ParmList (lev + 1) d.tab.length d.tab hs ps ∧ ParmSyms (lev + 1) ps syms ∧
        d'.tab = env ++ (name, .proc ⟨lev, label, ps.map (·.2)⟩) :: syms ∧ Ate d hs d') := by
  simp only [formalParameterList] at h
  by_cases hp : d.tok = .lparen
  · simp only [if_pos hp] at h
    obtain ⟨r, h1, h2⟩ := Res.bind_eq_ok.mp h
    match r, h1, h2 with
    | none, h1, h2 => cases h2
    | some e, h1, h2 =>
      cases h2
      obtain ⟨le1, ok1⟩ := formalParms_ok h1
      have le2 := expect_le e .rparen
      have tb2 := expect_tab e .rparen
      refine ⟨Nat.le_trans le1 le2, fun he hg env q htab => ?_⟩
      dsimp only at he ⊢
      obtain ⟨g1, xs, ps, hps, a1, tab1⟩ := ok1 (by omega) hg.sane
      obtain ⟨q1, q2⟩ := expect_eq (d := e) (t := .rparen) (by omega)
      have hs1 := g1.sane
      rw [hg.fixed hp trivial] at a1
      have hl : e.tab.drop d.tab.length = parmTab (lev + 1) ps := by rw [tab1]; simp
      have htk : e.tab.take (d.tab.length - 1) = env := by rw [tab1, htab]; simp
      simp only [tb2, hl, htk, parmKinds_tab]
      have hsy := placeParms_syms (lev + 1) ps
      have hse : Sane env := htk ▸ sane_take _ hs1
      have hsd : Sane (env ++ (name, Sym.proc ⟨lev, label, ps.map (·.2)⟩) :: placeParms (parmTab (lev + 1) ps)) := by
        refine sane_append.mpr ⟨hse, fun x hx => ?_⟩
        rcases List.mem_cons.mp hx with rfl | hx
        · exact trivial
        · exact parmSyms_sane hsy x hx
      refine ⟨⟨hsd, e.tab, 0, hs1, by rw [q2]; rfl⟩, _, ps, _, .some hps, hsy, rfl, ?_⟩
      have A := (a1.trans (q2 ▸ g1.ate q1 trivial 0)).trans (ate_same (d' := { e.expect .rparen with
        tab := env ++ (name, Sym.proc ⟨lev, label, ps.map (·.2)⟩) :: placeParms (parmTab (lev + 1) ps) }) rfl rfl)
      simpa using A
  · simp only [if_neg hp] at h
    obtain ⟨r, h1, h2⟩ := Res.bind_eq_ok.mp h
    cases h1
    cases h2
    refine ⟨Nat.le_refl _, fun he hg env q htab => ?_⟩
    have hl : d.tab.drop d.tab.length = [] := by simp
    have htk : d.tab.take (d.tab.length - 1) = env := by rw [htab]; simp
    simp only [hl, htk]
    have hse : Sane env := htk ▸ sane_take _ hg.sane
    obtain ⟨tab, st, hst, hr⟩ := hg.read
    refine ⟨⟨sane_append.mpr ⟨hse, sane_one trivial⟩, tab, st, hst, hr⟩, [], [], [], .none, .nil, rfl,
      ate_same rfl rfl⟩

/-! ### Blocks -/

theorem compound_took {g : Cfg} {n : Nat} {s s' : CS} {b : Bool} (h : compound g n s = some s') (hi : Inside s b) :
    Took s.next s' (fun ts => ∃ ss, Stms checked b ss ∧ ts = ss ++ [.end_]) := by
  cases n with
  | zero => simp [compound] at h
  | succ n =>
    simp only [compound] at h
    obtain ⟨s1, h1, h2⟩ := Option.bind_eq_some_iff.mp h
    cases h2
    refine (((knownS g n).stmts s s1 b h1 hi).seq (took_expect s1 (by decide))).imp ?_
    rintro ts ⟨a, c, rfl, ha, rfl⟩
    exact ⟨a, ha, rfl⟩

theorem blockStart_ok (lev : Nat) (label : Word) (d : DS) (s : CS) :
    s.errs ≤ (blockStart lev label d s).errs ∧ (blockStart lev label d s).toks = d.body ∧
    (blockStart lev label d s).brk = s.brk ∧ (blockStart lev label d s).cont = s.cont ∧
    ((blockStart lev label d s).errs = s.errs → d.tok = .begin_) := by
  unfold blockStart
  dsimp only
  generalize hs1 : (if d.tok = .begin_ then ({ s with toks := d.body } : CS) else CS.err { s with toks := d.body }) = s1
  have h1 : s.errs ≤ s1.errs ∧ s1.toks = d.body ∧ s1.brk = s.brk ∧ s1.cont = s.cont ∧
      (s1.errs = s.errs → d.tok = .begin_) := by
    rw [← hs1]; split
    · rename_i h; exact ⟨Nat.le_refl _, rfl, rfl, rfl, fun _ => h⟩
    · exact ⟨by simp [CS.err], rfl, rfl, rfl, fun h => by simp [CS.err] at h⟩
  have q1 := quiet_data .label label.toNat s1
  generalize genData .label label.toNat s1 = s2 at q1 ⊢
  have q2 : Quiet s2 (if d.dstack ≠ 0 then genData .inds (alignUp d.dstack) s2 else s2) := by
    split
    · exact quiet_data _ _ _
    · exact Quiet.refl _
  generalize (if d.dstack ≠ 0 then genData .inds (alignUp d.dstack) s2 else s2) = s3 at q2 ⊢
  have q3 : Quiet s3 (if lev = 0 then initialization s3 else s3) := by
    split
    · exact (((quiet_data _ _ _).trans (quiet_data _ _ _)).trans (quiet_data _ _ _)).trans (quiet_data _ _ _)
    · exact Quiet.refl _
  have q := (q1.trans q2).trans q3
  exact ⟨Nat.le_trans h1.1 q.le, q.toks.trans h1.2.1, q.brk.trans h1.2.2.1, q.cont.trans h1.2.2.2.1, fun h =>
    h1.2.2.2.2 (by have := q.le; have := h1.1; omega)⟩

theorem blockEnd_ok {g : Cfg} {n : Nat} {label : Word} {d d' : DS} {s s' : CS}
    (h : blockEnd g n label d s = some (d', s')) :
    d'.errs = d.errs ∧ d'.tab = d.tab ∧ s.errs ≤ s'.errs ∧
    (s'.errs = s.errs → Good d → s.brk = 0 ∧ s.cont = 0 → Good d' ∧ (s'.brk = 0 ∧ s'.cont = 0) ∧ ∃ bs,
      Stm checked false (.begin_ :: bs.map (Lx.tok d.tab 0)) ∧ Ate d (.tk .begin_ :: bs) d') := by
  simp only [blockEnd] at h
  obtain ⟨s1, h1, h2⟩ := Option.bind_eq_some_iff.mp h
  obtain ⟨le0, tk0, br0, co0, be0⟩ := blockStart_ok g.level label d s
  generalize blockStart g.level label d s = s0 at *
  generalize hs2 : (if d.dstack ≠ 0 then genData .inds (-(alignUp d.dstack : Int)) s1 else s1) = s2 at h2
  have q2 : Quiet s1 s2 := by
    rw [← hs2]; split
    · exact quiet_data _ _ _
    · exact Quiet.refl _
  cases h2
  have T0 := compound_took h1 (inside_true s0)
  have l0 : s0.errs ≤ s1.errs := T0.le
  have l2 := q2.le
  refine ⟨rfl, rfl, by show s.errs ≤ s2.errs; omega, fun he hg hz => ?_⟩
  have he' : s2.errs = s.errs := he
  have T := compound_took (b := false) h1 ⟨fun h => absurd (br0.trans hz.1) h, fun h => absurd (co0.trans hz.2) h⟩
  obtain ⟨ts, r1, ss, hss, rfl⟩ := T.read (show s1.errs = s0.errs by omega)
  have hb := be0 (by omega)
  have hlast := hg.fixed hb trivial
  have r2 : d.rest.map (Lx.tok d.tab 0) = (ss ++ [.end_]) ++ s1.toks := by
    have : s0.next.toks = d.rest.map (Lx.tok d.tab 0) := by simp [CS.next, tk0, DS.body]
    rw [← this, r1]
  have hlen : d.rest.length = (ss ++ [Tk.end_]).length + s1.toks.length := by
    have := congrArg List.length r2
    simpa only [List.length_map, List.length_append] using this
  generalize hm : (ss ++ [Tk.end_]).length = m at hlen
  have e1 : (d.rest.take m).map (Lx.tok d.tab 0) = ss ++ [.end_] := by
    rw [List.map_take, r2, ← hm, List.take_left]
  have e2 : (d.rest.drop m).map (Lx.tok d.tab 0) = s1.toks := by
    rw [List.map_drop, r2, ← hm, List.drop_left]
  have e3 : (d.last :: d.rest).drop (d.rest.length + 1 - s2.toks.length) = d.rest.drop m := by
    rw [q2.toks, show d.rest.length + 1 - s1.toks.length = m + 1 by omega]; rfl
  have hbr : s2.brk = 0 ∧ s2.cont = 0 :=
    ⟨q2.brk.trans (T.brk.trans (br0.trans hz.1)), q2.cont.trans (T.cont.trans (co0.trans hz.2))⟩
  have hst : Stm checked false (.begin_ :: (d.rest.take m).map (Lx.tok d.tab 0)) := by
    rw [e1]; exact .block hss
  refine ⟨⟨hg.sane, d.tab, 0, hg.sane, ?_⟩, hbr, d.rest.take m, hst, ?_⟩
  · show s2.tok = _
    simp only [DS.resume, e3]
    rw [tok_quiet q2, CS.tok, ← e2]
    cases d.rest.drop m <;> rfl
  · have htd := List.take_append_drop m d.rest
    cases hl : d.rest.drop m with
    | nil =>
      refine ⟨1, ?_⟩
      simp only [DS.resume, e3, hl]
      rw [hl, List.append_nil] at htd
      simp [hlast, htd]
    | cons x r =>
      refine ⟨0, ?_⟩
      simp only [DS.resume, e3, hl]
      rw [hl] at htd
      simp [hlast, htd]

/-- The states before and after a part of a program; Q holds if there was no error. -/
structure Part (d d' : DS) (s s' : CS) (Q : List Lx → Prop) : Prop where
  led : d.errs ≤ d'.errs
  les : s.errs ≤ s'.errs
  ok : d'.errs = d.errs → s'.errs = s.errs → Good d → s.brk = 0 ∧ s.cont = 0 →
    Good d' ∧ (s'.brk = 0 ∧ s'.cont = 0) ∧ ∃ xs, Ate d xs d' ∧ Q xs

/-- What is known of procedures and blocks. -/
structure KnownP (line : Nat → Byte × Word) (pad : Byte) (n : Nat) : Prop where
  procs : ∀ lev off label first d d' s s', procedures line pad n lev off label first d s = .ok (some (d', s')) →
    Part d d' s s' (fun xs => Procs lev off d.tab xs d'.tab)
  proc : ∀ lev off d d' s s', procedure line pad n lev d s = .ok (some (d', s')) →
    (d.tok = .ident → New d.tab off d.last) →
    Part d d' s s' (fun xs => ∀ ys env, Procs lev off d'.tab ys env →
      Procs lev off d.tab (.tk (.other 0x9c) :: (xs ++ ys)) env)
  block : ∀ lev d d' s s', block line pad n lev d s = .ok (some (d', s')) →
    d'.tab = d.tab ∧ Part d d' s s' (Block lev d.tab)

theorem knownP (line : Nat → Byte × Word) (pad : Byte) : ∀ n, KnownP line pad n
  | 0 => ⟨fun _ _ _ _ _ _ _ _ h => by simp [procedures] at h, fun _ _ _ _ _ _ h => by simp [procedure] at h,
      fun _ _ _ _ _ h => by simp [Comp.block] at h⟩
  | n + 1 => by
    have ih := knownP line pad n
    constructor
    · intro lev off label first d d' s s' h
      simp only [procedures] at h
      split at h
      · cases h
      · split at h
        · rename_i ht
          generalize hs1 : (if first = true ∧ 0 < lev ∧ 0 < label.toNat then genData .jmp label.toNat s else s) = s1 at h
          have q1 : Quiet s s1 := by
            rw [← hs1]; split
            · exact quiet_data _ _ _
            · exact Quiet.refl _
          obtain ⟨r, h1, h2⟩ := Res.bind_eq_ok.mp h
          match r, h1, h2 with
          | none, h1, h2 => cases h2
          | some (d1, s2), h1, h2 =>
            have P1 := ih.proc lev off _ _ _ _ h1 (fun h => h)
            have P2 := ih.procs _ _ _ _ _ _ _ _ h2
            have a1 := P1.led
            have a2 := P1.les
            have a3 := P2.led
            have a4 := P2.les
            have a5 := q1.le
            rw [get_errs] at a1
            refine ⟨by omega, by omega, fun hd hs hg hz => ?_⟩
            obtain ⟨g1, z1, xs, b1, c1⟩ := P1.ok (by rw [get_errs]; omega) (by omega) (good_get _ hg.sane)
              ⟨q1.brk.trans hz.1, q1.cont.trans hz.2⟩
            obtain ⟨g2, z2, ys, b2, c2⟩ := P2.ok (by omega) (by omega) g1 z1
            refine ⟨g2, z2, .tk (.other 0x9c) :: (xs ++ ys), ?_, c1 _ _ c2⟩
            have A := ((hg.ate ht (fixed_other (by decide)) off).trans b1).trans b2
            simpa using A
        · cases h
          exact ⟨Nat.le_refl _, Nat.le_refl _, fun _ _ hg hz => ⟨hg, hz, [], ate_same rfl rfl, .none⟩⟩
    · intro lev off d d' s s' h hnew
      simp only [procedure] at h
      have q0 := quiet_label s
      generalize newLabel s = p at h q0
      obtain ⟨label, s1⟩ := p
      dsimp only at h q0
      split at h
      · cases h
        exact ⟨by simp, q0.le, fun hd => by simp at hd⟩
      · rename_i hi
        simp only [ne_eq, Decidable.not_not] at hi
        generalize hd1 : ({ d with tab := d.tab ++ [(d.last.string, Comp.Sym.proc ⟨lev, label.toNat, []⟩)] } : DS) = d1 at h
        have t1 : d1.tab = d.tab ++ [(d.last.string, .proc ⟨lev, label.toNat, []⟩)] := hd1 ▸ rfl
        have e1 : d1.errs = d.errs := hd1 ▸ rfl
        have a1 : Ate d [d.last] (d1.get 0) := by
          have := (ate_same (d := d) (d' := d1) (hd1 ▸ rfl) (hd1 ▸ rfl)).trans (ate_get d1 0)
          rw [show d1.last = d.last from hd1 ▸ rfl] at this
          exact this
        have sn1 : Sane d.tab → Sane d1.tab := fun hs => t1 ▸ sane_append.mpr ⟨hs, sane_one trivial⟩
        obtain ⟨r, h1, h2⟩ := Res.bind_eq_ok.mp h
        match r, h1, h2 with
        | none, h1, h2 => cases h2
        | some d2, h1, h2 =>
          obtain ⟨le2, ok2⟩ := formalList_ok h1
          rw [get_errs, e1] at le2
          dsimp only at h2
          obtain ⟨r, h3, h4⟩ := Res.bind_eq_ok.mp h2
          match r, h3, h4 with
          | none, h3, h4 => cases h4
          | some (e, s2), h3, h4 =>
            cases h4
            obtain ⟨tbe, B⟩ := ih.block _ _ _ _ _ h3
            have q3 := quiet_data .label label.toNat s1
            have q4 := quiet_simple .ret s2
            have b1 := B.led
            have b2 := B.les
            have x1 := expect_le d2 .semi
            have x2 := expect_le { e with tab := d2.tab.take (d.tab.length + 1) } .semi
            have x3 := q0.le
            have x4 := q3.le
            have x5 := q4.le
            have x6 : ({ e with tab := d2.tab.take (d.tab.length + 1) } : DS).errs = e.errs := rfl
            refine ⟨by omega, by omega, fun hd hs hg hz => ?_⟩
            obtain ⟨g2, hs', ps, syms, hpl, hsy, tab2, a2⟩ := ok2 (by rw [get_errs, e1]; omega)
              (good_get 0 (sn1 hg.sane)) d.tab _ (by rw [get_tab, t1])
            obtain ⟨y1, y2⟩ := expect_eq (d := d2) (t := .semi) (by omega)
            rw [y2] at B
            obtain ⟨g3, z3, bs, a3, hb⟩ := B.ok (by rw [get_errs]; omega) (by omega) (good_get 0 g2.sane)
              ⟨q3.brk.trans (q0.brk.trans hz.1), q3.cont.trans (q0.cont.trans hz.2)⟩
            obtain ⟨w1, w2⟩ := expect_eq (d := { e with tab := d2.tab.take (d.tab.length + 1) }) (t := .semi) (by omega)
            have tk2 : d2.tab.take (d.tab.length + 1) =
                d.tab ++ [(d.last.string, .proc ⟨lev, label.toNat, ps.map (·.2)⟩)] := by
              rw [tab2, show d.tab ++ (d.last.string, Comp.Sym.proc ⟨lev, label.toNat, ps.map (·.2)⟩) :: syms =
                (d.tab ++ [(d.last.string, Comp.Sym.proc ⟨lev, label.toNat, ps.map (·.2)⟩)]) ++ syms by simp,
                List.take_left' (by simp)]
            have g4 : Good { e with tab := d2.tab.take (d.tab.length + 1) } := by
              obtain ⟨tab, st, hst, hr⟩ := g3.read
              exact ⟨sane_take _ g2.sane, tab, st, hst, hr⟩
            rw [w2]
            refine ⟨good_get 0 g4.sane, ⟨q4.brk.trans z3.1, q4.cont.trans z3.2⟩,
              d.last :: (hs' ++ .tk .semi :: (bs ++ [.tk .semi])), ?_, ?_⟩
            · have A := ((((a1.trans a2).trans (g2.ate y1 trivial 0)).trans a3).trans
                (ate_same (d' := { e with tab := d2.tab.take (d.tab.length + 1) }) rfl rfl)).trans
                (g4.ate w1 trivial 0)
              simpa using A
            · intro ys env hys
              rw [get_tab] at hys
              rw [tk2] at hys
              rw [get_tab, t1] at hpl
              rw [get_tab, tab2] at hb
              have := Procs.more (hnew hi) (by simpa using hpl) hsy hb hys
              simpa using this
    · intro lev d d' s s' h
      simp only [Comp.block] at h
      have q0 := quiet_label s
      generalize newLabel s = p at h q0
      obtain ⟨label, s1⟩ := p
      dsimp only at h q0
      obtain ⟨r, h1, h2⟩ := Res.bind_eq_ok.mp h
      match r, h1, h2 with
      | none, h1, h2 => cases h2
      | some e, h1, h2 =>
        have V := variablePart_ok h1
        dsimp only at h2
        obtain ⟨r, h3, h4⟩ := Res.bind_eq_ok.mp h2
        match r, h3, h4 with
        | none, h3, h4 => cases h4
        | some (e2, s2), h3, h4 =>
          have P := ih.procs _ _ _ _ _ _ _ _ h3
          dsimp only at h4
          cases h5 : blockEnd ⟨lev, line, pad⟩ n label e2 s2 with
          | none => rw [h5] at h4; cases h4
          | some p =>
            obtain ⟨e3, s3⟩ := p
            rw [h5] at h4
            cases h4
            obtain ⟨c1, c2, c3, c4⟩ := blockEnd_ok h5
            have v1 : d.errs ≤ e.errs := V.le
            have p1 := P.led
            have p2 := P.les
            have q1 := q0.le
            refine ⟨rfl, ⟨by show d.errs ≤ e3.errs; omega, by omega, fun hd hs hg hz => ?_⟩⟩
            have hd' : e3.errs = d.errs := hd
            have hg0 : Good { d with dstack := 0 } := ⟨hg.sane, hg.read⟩
            obtain ⟨g1, ds, a1, dd⟩ := V.ok (by show e.errs = d.errs; omega) hg0
            obtain ⟨g2, z2, ps, a2, dp⟩ := P.ok (by omega) (by omega) g1 ⟨q0.brk.trans hz.1, q0.cont.trans hz.2⟩
            obtain ⟨g3, z3, bs, hst, a3⟩ := c4 (by omega) g2 z2
            refine ⟨⟨hg.sane, g3.read⟩, z3, ds ++ (ps ++ .tk .begin_ :: bs), ?_, .mk dd dp hst⟩
            have A := (((ate_same (d := d) (d' := { d with dstack := 0 }) rfl rfl).trans a1).trans a2).trans
              (a3.trans (ate_same (d' := { e3 with tab := d.tab, dstack := d.dstack }) rfl rfl))
            simpa using A

/-! ### Programs -/

theorem fileList_ok : ∀ {n : Nat} {d d' : DS}, fileList n d = some d' → d.tab = primed →
    d.errs ≤ d'.errs ∧ d'.tab = primed ∧ (d'.errs = d.errs → Now d' ∧ ∃ xs, FileNames xs ∧
      Ate d (d.last :: (xs ++ [.tk .rparen])) d')
  | 0, _, _, h, _ => by cases h
  | n + 1, d, d', h, ht => by
    simp only [fileList] at h
    have hs : Sane d.tab := ht ▸ sane_primed
    split at h
    · cases h
    · generalize hd1 : (if isFile (d.get 0).tok = true then (d.get 0).get 0 else (d.get 0).err) = d1 at h
      have H : d.errs ≤ d1.errs ∧ d1.tab = primed ∧ (d1.errs = d.errs → isFile (d.get 0).tok = true ∧
          d1 = (d.get 0).get 0) := by
        rw [← hd1]; split
        · rename_i hf; exact ⟨Nat.le_refl _, ht, fun _ => ⟨hf, rfl⟩⟩
        · exact ⟨by simp, ht, fun h => by simp at h⟩
      obtain ⟨le1, tb1, ok1⟩ := H
      have hfile : isFile (d.get 0).tok = true → ∃ off, (d.get 0).last.tok primed 0 = .file off := by
        intro hf
        have : (d.get 0).tok = (d.get 0).last.tok primed 0 := by rw [← ht]; rfl
        rw [this] at hf
        revert hf
        generalize (d.get 0).last.tok primed 0 = t
        intro hf
        cases t with
        | file off => exact ⟨off, rfl⟩
        | _ => cases hf
      split at h
      · rename_i hc
        obtain ⟨le2, tb2, ok2⟩ := fileList_ok h tb1
        refine ⟨by omega, tb2, fun he => ?_⟩
        obtain ⟨hf, rfl⟩ := ok1 (by omega)
        obtain ⟨off, hoff⟩ := hfile hf
        obtain ⟨n2, xs, fx, a2⟩ := ok2 (by omega)
        refine ⟨n2, (d.get 0).last :: .tk .comma :: xs, .more hoff fx, ?_⟩
        have n1 : Now ((d.get 0).get 0) := now_get (d := d.get 0) hs
        rw [n1.good.fixed hc trivial] at a2
        have A := ((ate_get d 0).trans (ate_get (d.get 0) 0)).trans a2
        simpa using A
      · cases h
        have x1 := expect_le d1 .rparen
        refine ⟨by omega, (expect_tab _ _).trans tb1, fun he => ?_⟩
        obtain ⟨y1, y2⟩ := expect_eq (d := d1) (t := .rparen) (by omega)
        obtain ⟨hf, rfl⟩ := ok1 (by omega)
        obtain ⟨off, hoff⟩ := hfile hf
        have n1 : Now ((d.get 0).get 0) := now_get (d := d.get 0) hs
        rw [y2]
        refine ⟨now_get n1.sane, [(d.get 0).last], .one hoff, ?_⟩
        have A := ((ate_get d 0).trans (ate_get (d.get 0) 0)).trans (n1.good.ate y1 trivial 0)
        simpa using A

/-- The heading of a program. -/
inductive Heading : List Lx → Prop
  | plain {x} : New primed 0 x → Heading [x, .tk .semi]
  | files {x fs} : New primed 0 x → FileNames fs → Heading (x :: .tk .lparen :: (fs ++ [.tk .rparen, .tk .semi]))

theorem heading_ok {n : Nat} {d d' : DS} (h : heading n d = some d') (hn : Now d) (ht : d.tab = primed) :
    d.errs ≤ d'.errs ∧ d'.tab = primed ∧ (d'.errs = d.errs → Now d' ∧ ∃ xs, Heading xs ∧ Ate d xs d') := by
  simp only [heading] at h
  have x1 := expect_le d .ident
  have t1 := (expect_tab d .ident).trans ht
  obtain ⟨d2, h2, rfl⟩ := Option.map_eq_some_iff.mp h
  have x2 := expect_le d2 .semi
  have hnew : d.tok = .ident → New primed 0 d.last := by
    intro h; rw [hn.tok, ht] at h; exact h
  split at h2
  · rename_i hp
    obtain ⟨le2, tb2, ok2⟩ := fileList_ok h2 t1
    refine ⟨by omega, (expect_tab _ _).trans tb2, fun he => ?_⟩
    obtain ⟨y1, y2⟩ := expect_eq (d := d) (t := .ident) (by omega)
    obtain ⟨w1, w2⟩ := expect_eq (d := d2) (t := .semi) (by omega)
    obtain ⟨n2, fs, hfs, a2⟩ := ok2 (by omega)
    rw [y2] at a2 hp
    rw [w2]
    refine ⟨now_get n2.sane, _, .files (hnew y1) hfs, ?_⟩
    rw [(now_get hn.sane).good.fixed hp trivial] at a2
    have A := ((ate_get d 0).trans a2).trans (n2.good.ate w1 trivial 0)
    simpa using A
  · cases h2
    refine ⟨by omega, (expect_tab _ _).trans t1, fun he => ?_⟩
    obtain ⟨y1, y2⟩ := expect_eq (d := d) (t := .ident) (by omega)
    rw [y2] at he ⊢
    obtain ⟨w1, w2⟩ := expect_eq (d := d.get 0) (t := .semi) (by rw [get_errs]; omega)
    rw [w2]
    refine ⟨now_get (d := d.get 0) hn.sane, _, .plain (hnew y1), ?_⟩
    have A := (ate_get d 0).trans ((now_get hn.sane).good.ate w1 trivial 0)
    simpa using A

theorem Heading.program {xs bs : List Lx} (h : Heading xs) (hb : Block 0 primed bs) :
    Program (xs ++ (bs ++ [.tk .period])) := by
  cases h with
  | plain hx => exact .plain hx hb
  | files hx hf => simpa using Program.files hx hf hb

theorem program_accepted {line : Nat → Byte × Word} {pad : Byte} {n : Nat} {toks : List Lx} {o : Object}
    (h : program line pad n toks = .ok (some o)) (he : o.errs = 0) :
    ∃ k ts rest, toks ++ List.replicate k (.tk .period) = ts ++ rest ∧ Program ts := by
  simp only [program] at h
  obtain ⟨r, h1, h2⟩ := Res.bind_eq_ok.mp h
  match r, h1, h2 with
  | none, h1, h2 => cases h2
  | some d2, h1, h2 =>
    simp only [declarations] at h1
    generalize hd0 : DS.get ⟨toks, .period, none, .tk .period, primed, 4, 0⟩ 0 = d0 at h1
    have n0 : Now d0 := hd0 ▸ now_get (d := ⟨toks, .period, none, .tk .period, primed, 4, 0⟩) sane_primed
    have t0 : d0.tab = primed := hd0 ▸ rfl
    have e0 : d0.errs = 0 := hd0 ▸ rfl
    have A0 : ∃ j, toks ++ List.replicate j (.tk .period) = d0.last :: d0.rest := by
      rw [← hd0]
      cases toks with
      | nil => exact ⟨1, rfl⟩
      | cons x l => exact ⟨0, by simp [DS.get]⟩
    cases hh : heading n d0 with
    | none => rw [hh] at h1; cases h1
    | some d1 =>
      rw [hh] at h1
      dsimp only at h1
      split at h1
      · cases h1
      · obtain ⟨le1, t1, ok1⟩ := heading_ok hh n0 t0
        have V := variablePart_ok h1
        dsimp only at h2
        obtain ⟨r, h3, h4⟩ := Res.bind_eq_ok.mp h2
        match r, h3, h4 with
        | none, h3, h4 => cases h4
        | some (d3, s3), h3, h4 =>
          have P := (knownP line pad n).procs _ _ _ _ _ _ _ _ h3
          dsimp only at h4
          cases h5 : blockEnd ⟨0, line, pad⟩ n 1 d3 s3 with
          | none => rw [h5] at h4; cases h4
          | some p =>
            obtain ⟨d4, s4⟩ := p
            rw [h5] at h4
            cases h4
            obtain ⟨c1, c2, c3, c4⟩ := blockEnd_ok h5
            have v1 := V.le
            have p1 := P.led
            have p2 := P.les
            have q := quiet_simple .end_ (if d4.tok = .period then s4 else s4.err)
            have ql := q.le
            have he' : d4.errs + (genSimple .end_ (if d4.tok = .period then s4 else s4.err)).errs = 0 := he
            have hper : d4.tok = .period := by
              by_cases hp : d4.tok = .period
              · exact hp
              · rw [if_neg hp] at ql he'
                have : s4.err.errs = s4.errs + 1 := rfl
                omega
            rw [if_pos hper] at ql he'
            obtain ⟨n1, xs, hx, a1⟩ := ok1 (by omega)
            obtain ⟨g2, ds, a2, dd⟩ := V.ok (by omega) n1.good
            obtain ⟨g3, z3, ps, a3, dp⟩ := P.ok (by omega) (by show s3.errs = 0; omega) g2 ⟨rfl, rfl⟩
            obtain ⟨g4, z4, bs, hst, a4⟩ := c4 (by omega) g3 z3
            rw [t1] at dd
            have hb : Block 0 primed (ds ++ (ps ++ .tk .begin_ :: bs)) := .mk dd dp hst
            obtain ⟨k, A⟩ := ((a1.trans a2).trans a3).trans a4
            obtain ⟨j, A0⟩ := A0
            rw [← A0, g4.fixed hper trivial] at A
            refine ⟨j + k, _, d4.rest, ?_, hx.program hb⟩
            rw [← List.replicate_append_replicate, ← List.append_assoc, A]
            simp

end Pas.Accept
