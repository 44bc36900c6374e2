import Verif.Spec.AcceptProg
import Verif.Model.Source

/-! In a program the only period is the last token, and there is no question mark. -/
namespace Pas.Accept
open Pas.Comp
open Pas.Const (KK)

/-- No period and no question mark. -/
def inner : Tk → Bool
  | .period => false
  | .other n => n != 63
  | _ => true

/-- The same for what the tokenizer delivers. -/
def innerLx : Lx → Bool
  | .tk t => inner t
  | _ => true

theorem innerLx_tok {env : Env} {s : Nat} : ∀ {x : Lx}, inner (x.tok env s) = true → innerLx x = true
  | .name _, _ => rfl
  | .var_, _ => rfl
  | .tk _, h => h

theorem inner_map {env : Env} {s : Nat} : ∀ {xs : List Lx}, (xs.map (Lx.tok env s)).all inner = true →
    xs.all innerLx = true
  | [], _ => rfl
  | x :: xs, h => by
    simp only [List.map_cons, List.all_cons, Bool.and_eq_true] at h ⊢
    exact ⟨innerLx_tok h.1, inner_map h.2⟩

theorem inner_add {op : Tk} {k k' : Kind} (h : AddTypes op k k') : inner op = true := by
  cases op <;> first | rfl | exact h.elim

theorem inner_mul {op : Tk} {k k' : Kind} (h : checked.mul op k k') : inner op = true := by
  cases op <;> first | rfl | exact h.1.elim

theorem inner_rel {op : Tk} {k k' r : Kind} (h : checked.rel op k k' r) : inner op = true := by
  obtain ⟨h, _⟩ := h
  rcases h with rfl | rfl | rfl | rfl | rfl | rfl <;> rfl

theorem inner_fn (f : Pas.Src.Fn) : inner f.tk = true := by cases f <;> rfl

theorem Form.inner {l ts k} (h : Form checked l ts k) : ts.all inner = true := by
  induction h using Form.rec (motive_2 := fun _ ts _ => ts.all Accept.inner = true) with
  | int | bool | char | var => rfl
  | not ho _ _ ih => rcases ho with rfl | rfl <;> exact ih
  | paren _ ih => simp_all [Accept.inner]
  | call _ _ ih => have := inner_fn; simp_all [Accept.inner]
  | index _ _ ih => simp_all [Accept.inner]
  | factor _ ih => exact ih
  | mul _ _ ho ih ih' => have := inner_mul ho; simp_all
  | term _ ih => exact ih
  | plus _ _ ih => exact ih
  | minus _ _ ih => exact ih
  | add _ _ ho ih ih' => have := inner_add ho; simp_all
  | simple _ ih => exact ih
  | rel _ _ ho ih ih' => have := inner_rel ho; simp_all
  | one _ ih => exact ih
  | more _ _ ih ih' => simp_all [Accept.inner]

theorem Indices.inner {n ts} (h : Indices checked n ts) : ts.all inner = true := by
  generalize hr : checked = R at h
  induction n generalizing ts with
  | zero => cases h
  | succ n ih =>
    cases h with
    | one h => subst hr; exact h.inner
    | more h h' => have h1 := ih h'; subst hr; have h2 := h.inner; clear ih; simp_all [Accept.inner]

theorem ConstOf.inner {t k} (h : ConstOf t k) : inner t = true := by cases h <;> rfl

theorem Consts.inner {k ts} (h : Consts checked k ts) : ts.all inner = true := by
  induction h with
  | one h _ => have := h.inner; simp_all
  | more h _ _ ih => have := h.inner; simp_all [Accept.inner]

theorem Width.inner {ts} (h : Width checked ts) : ts.all inner = true := by
  cases h with
  | none => rfl
  | one h => exact h.inner
  | two h h' => have := h.inner; have := h'.inner; simp_all [Accept.inner]

theorem Item.inner {ts} (h : Item checked ts) : ts.all inner = true := by
  cases h with
  | str => rfl
  | value h _ h' => have := h.inner; have := h'.inner; simp_all

theorem Items.inner {ts} (h : Items checked ts) : ts.all inner = true := by
  induction h with
  | one h => exact h.inner
  | more h _ ih => have := h.inner; simp_all [Accept.inner]

theorem Targets.inner {ts} (h : Targets checked ts) : ts.all inner = true := by
  induction h with
  | one _ => rfl
  | more _ h _ ih => rcases h with rfl | rfl <;> simp_all [Accept.inner]

theorem Actuals.inner {ks ts} (h : Actuals checked ks ts) : ts.all inner = true := by
  induction h with
  | one h => exact h.inner
  | more h _ ih => have := h.inner; simp_all [Accept.inner]

theorem inner_before {ts} (h : checked.before ts) : ts.all inner = true := by
  rcases h with rfl | rfl | ⟨_, rfl | rfl⟩ <;> rfl

theorem inner_last {es : List Tk} (h : es = [.end_] ∨ es = [.semi, .end_]) : es.all inner = true := by
  rcases h with rfl | rfl <;> rfl

theorem Stm.inner {b ts} (h : Stm checked b ts) : ts.all inner = true := by
  induction h using Stm.rec (motive_2 := fun _ ts _ => ts.all Accept.inner = true)
    (motive_3 := fun _ _ ts _ => ts.all Accept.inner = true) with
  | empty | «break» | «continue» | line | lineParens | skip | skipParens | call | callParens => rfl
  | assign h => exact h.inner
  | element h _ h' => have := h.inner; have := h'.inner; simp_all [Accept.inner]
  | block _ ih => simp_all [Accept.inner]
  | ifThen h _ ih => have := h.inner; simp_all [Accept.inner]
  | ifElse h _ _ ih ih' => have := h.inner; simp_all [Accept.inner]
  | «while» h _ ih => have := h.inner; simp_all [Accept.inner]
  | «repeat» _ h ih => have := h.inner; simp_all [Accept.inner]
  | «for» _ h hd h' _ ih =>
    have := h.inner; have := h'.inner
    rcases hd with rfl | rfl <;> simp_all [Accept.inner]
  | case h _ ih => have := h.inner; simp_all [Accept.inner]
  | write h h' => have := inner_before h; have := h'.inner; simp_all [Accept.inner]
  | writeln h h' => have := inner_before h; have := h'.inner; simp_all [Accept.inner]
  | read h h' => have := inner_before h; have := h'.inner; simp_all [Accept.inner]
  | readln h h' => have := inner_before h; have := h'.inner; simp_all [Accept.inner]
  | callWith h => have := h.inner; simp_all [Accept.inner]
  | one _ ih => exact ih
  | other _ he ih => have := inner_last he; simp_all [Accept.inner]
  | last hc _ he ih => have := hc.inner; have := inner_last he; simp_all [Accept.inner]
  | _ =>
    first
    | (rename_i hc _; intro _ ih ih'; have := hc.inner; simp_all [Accept.inner]; done)
    | simp_all [Accept.inner]

theorem inner_cmul {op k a b v} (h : ConstMul op k a b v) : inner op = true := by
  cases op <;> first | rfl | (cases k <;> exact h.elim)

theorem inner_cadd {op k a b v} (h : ConstAdd op k a b v) : inner op = true := by
  cases op <;> first | rfl | (cases k <;> exact h.elim)

theorem ConstForm.inner {l ts k v} (h : ConstForm l ts k v) : ts.all inner = true := by
  induction h with
  | int | char | bool => rfl
  | not _ _ ih => exact ih
  | call _ _ ih => have := inner_fn; simp_all [Accept.inner]
  | factor _ ih => exact ih
  | mul _ _ ho ih ih' => have := inner_cmul ho; simp_all
  | term _ ih => exact ih
  | plus _ ih => exact ih
  | minus _ _ ih => exact ih
  | add _ _ ho ih ih' => have := inner_cadd ho; simp_all

theorem New.inner {env s x} (h : New env s x) : innerLx x = true := innerLx_tok (env := env) (s := s) (by rw [h]; rfl)

theorem IsType.inner {env x k} (h : IsType env x k) : innerLx x = true := by
  obtain ⟨_, h⟩ := h
  cases x with
  | name => rfl
  | var_ => rfl
  | tk => cases h

theorem Ranges.inner {env xs rs} (h : Ranges env xs rs) : xs.all innerLx = true := by
  induction h with
  | one h h' _ =>
    have := innerLx_tok (env := env) (s := 0) (by rw [h]; rfl); have := innerLx_tok (env := env) (s := 0) (by rw [h']; rfl)
    simp_all [innerLx, Accept.inner]
  | more h h' _ _ ih =>
    have := innerLx_tok (env := env) (s := 0) (by rw [h]; rfl); have := innerLx_tok (env := env) (s := 0) (by rw [h']; rfl)
    simp_all [innerLx, Accept.inner]

theorem TypeOf.inner {env xs k rs} (h : TypeOf env xs k rs) : xs.all innerLx = true := by
  cases h with
  | simple h => have := h.inner; simp_all
  | array h h' => have := h.inner; have := h'.inner; simp_all [innerLx, Accept.inner]

theorem NewNames.inner {env s xs ns} (h : NewNames env s xs ns) : xs.all innerLx = true := by
  induction h with
  | one h => have := h.inner; simp_all
  | more h _ ih => have := h.inner; simp_all [innerLx, Accept.inner]

theorem Vars.inner {lev s env xs env'} (h : Vars lev s env xs env') : xs.all innerLx = true := by
  induction h with
  | none => rfl
  | last h h' _ => have := h.inner; have := h'.inner; simp_all [innerLx, Accept.inner]
  | more h h' _ _ ih => have := h.inner; have := h'.inner; simp_all [innerLx, Accept.inner]

theorem IsConst.inner {env es t} (h : IsConst env es t) : es.all innerLx = true := by
  obtain ⟨_, _, h, _⟩ := h
  exact inner_map h.inner

theorem ConstDefs.inner {s env xs env'} (h : ConstDefs s env xs env') : xs.all innerLx = true := by
  induction h with
  | none => rfl
  | last h h' => have := h.inner; have := h'.inner; simp_all [innerLx, Accept.inner]
  | more h h' _ ih => have := h.inner; have := h'.inner; simp_all [innerLx, Accept.inner]

theorem inner_var {v : Lx} (h : v = .var_ ∨ v = .tk (.other 0xa9)) : innerLx v = true := by
  rcases h with rfl | rfl <;> rfl

theorem Decls.inner {lev s env xs env'} (h : Decls lev s env xs env') : xs.all innerLx = true := by
  cases h with
  | none => rfl
  | const h => have := h.inner; simp_all [innerLx, Accept.inner]
  | var hv h => have := inner_var hv; have := h.inner; simp_all
  | both h hv h' => have := inner_var hv; have := h.inner; have := h'.inner; simp_all [innerLx, Accept.inner]

theorem ParmNames.inner {lev s env xs ns} (h : ParmNames lev s env xs ns) : xs.all innerLx = true := by
  induction h with
  | one h => have := h.inner; simp_all
  | more h _ ih => have := h.inner; simp_all [innerLx, Accept.inner]

theorem Parms.inner {lev s env xs ps} (h : Parms lev s env xs ps) : xs.all innerLx = true := by
  induction h with
  | one h h' => have := h.inner; have := h'.inner; simp_all [innerLx, Accept.inner]
  | more h h' _ ih => have := h.inner; have := h'.inner; simp_all [innerLx, Accept.inner]

theorem ParmList.inner {lev s env xs ps} (h : ParmList lev s env xs ps) : xs.all innerLx = true := by
  cases h with
  | none => rfl
  | some h => have := h.inner; simp_all [innerLx, Accept.inner]

theorem Block.inner {lev env xs} (h : Block lev env xs) : xs.all innerLx = true := by
  induction h using Block.rec (motive_1 := fun _ _ _ xs _ _ => xs.all innerLx = true) with
  | none => rfl
  | more h h' _ _ _ ih ih' =>
    have := h.inner; have := h'.inner
    simp_all [innerLx, Accept.inner]
  | mk hd _ hs ih =>
    have := hd.inner
    have hs := hs.inner
    rw [List.all_cons, Bool.and_eq_true] at hs
    have := inner_map hs.2
    simp_all [innerLx, Accept.inner]

theorem FileNames.inner {xs} (h : FileNames xs) : xs.all innerLx = true := by
  induction h with
  | one h => have := innerLx_tok (env := primed) (s := 0) (by rw [h]; rfl); simp_all
  | more h _ ih => have := innerLx_tok (env := primed) (s := 0) (by rw [h]; rfl); simp_all [innerLx, Accept.inner]

/-- The only period of a program is the last token, and there is no question mark. -/
theorem Program.inner {ts} (h : Program ts) : ∃ us, ts = us ++ [.tk .period] ∧ us.all innerLx = true := by
  cases h with
  | plain h hb =>
    refine ⟨_ :: .tk .semi :: _, rfl, ?_⟩
    have := h.inner; have := hb.inner; simp_all [innerLx, Accept.inner]
  | @files x fs bs h hf hb =>
    refine ⟨x :: .tk .lparen :: (fs ++ .tk .rparen :: .tk .semi :: bs), by simp, ?_⟩
    have := h.inner; have := hf.inner; have := hb.inner; simp_all [innerLx, Accept.inner]

theorem codeTk_period {c s : Nat} (h : codeTk c s = .period) : c = 46 := by
  unfold codeTk at h
  split at h <;> first | rfl | cases h | (split at h <;> cases h)

/-- The tokenizer delivers a period as the last token, and only there. -/
theorem readTokens_period : ∀ (n : Nat) (s : Tok.State) (toks : List Lx) (e : Nat), readTokens n s = .ok (toks, e) →
    ∃ us, toks = us ++ [.tk .period] ∧ .tk .period ∉ us
  | 0, _, _, _, h => by cases h
  | n + 1, s, toks, e, h => by
    unfold readTokens at h
    rw [Res.bind_eq_ok] at h
    obtain ⟨t, _, h⟩ := h
    split at h
    · rename_i ht
      injection h with h; injection h with h1 h2
      subst h1
      exact ⟨[], by simp [lexOf, ht]; rfl, by simp⟩
    · rename_i ht
      rw [Res.bind_eq_ok] at h
      obtain ⟨⟨l, e'⟩, hl, h⟩ := h
      injection h with h; injection h with h1 h2
      subst h1
      obtain ⟨us, rfl, hu⟩ := readTokens_period n _ l e' hl
      refine ⟨lexOf t :: us, rfl, ?_⟩
      intro hm
      rcases List.mem_cons.1 hm with hm | hm
      · unfold lexOf at hm
        split at hm
        · cases hm
        · cases hm
        · cases hm
        · cases hm
        · cases hm
        · injection hm with hm
          exact ht (codeTk_period hm.symm)
      · exact hu hm

/-- Two lists with one period, at their end, of which one begins another with more periods. -/
theorem one_period {us vs rest : List Lx} {k : Nat} (hu : .tk .period ∉ us) (hv : .tk .period ∉ vs)
    (h : us ++ [.tk .period] ++ List.replicate k (.tk .period) = vs ++ [.tk .period] ++ rest) : us = vs := by
  rw [List.append_assoc, List.append_assoc] at h
  rcases List.append_eq_append_iff.1 h with ⟨a, h1, h2⟩ | ⟨a, h1, h2⟩
  · cases a with
    | nil => simpa using h1.symm
    | cons x a =>
      injection h2 with h2 _
      subst h2
      exact (hv (by rw [h1]; simp)).elim
  · cases a with
    | nil => simpa using h1
    | cons x a =>
      injection h2 with h2 _
      subst h2
      exact (hu (by rw [h1]; simp)).elim

end Pas.Accept
