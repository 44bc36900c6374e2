import Verif.Lemmas.CompWrite
import Verif.Lemmas.CompRead

/-! The compiler generates the code of procedure calls. -/
namespace Pas.Src
open Pas.Spec Pas.Comp

variable {g : Cfg} {vars : Variable → Prop} {procs : Proc → Prop}

theorem parmSize_kind (t : Ty) : parmSize t.kind = 2 := by
  cases t with
  | num t => cases t <;> rfl
  | _ => rfl

theorem parmsSize_kind (ts : List Ty) : parmsSize (ts.map Ty.kind) = 2 * ts.length := by
  induction ts with
  | nil => rfl
  | cons t ts ih =>
    simp only [List.map_cons, parmsSize, parmSize_kind, ih, List.length_cons]; omega

/-- The parameters of a call. -/
theorem args_after (hv : ∀ y, vars y → Usable g.level y) : ∀ (ts : List Ty) (es : List (E .expr)),
    ParmsOk vars ts es → ∀ (s : CS) (rest : List Tk) (c : List OpType), ∃ N, ∀ n, N ≤ n →
      actualParms g n (ts.map Ty.kind) (after s (argToks es ++ .rparen :: rest) c) =
        some (after s (.rparen :: rest) (c ++ codeA g.level ts es)) := by
  intro ts
  induction ts with
  | nil =>
    intro es h s rest c
    cases es with
    | nil => exact ⟨0, fun n _ => by simp [actualParms, argToks, codeA]⟩
    | cons e es => cases h
  | cons t ts ih =>
    intro es h s rest c
    cases es with
    | nil => cases h
    | cons e es =>
      obtain ⟨h1, h2⟩ := h
      have hlen : ts = [] ↔ es = [] := by
        cases ts <;> cases es <;> simp_all [ParmsOk]
      cases es with
      | nil =>
        have ht : ts = [] := hlen.2 rfl
        subst ht
        obtain ⟨N, hN⟩ := expr_after hv h1 s (rest := .rparen :: rest) ⟨rfl, rfl, rfl, by simp⟩ c
        refine ⟨N, fun n hn => ?_⟩
        have h3 := hN n hn
        simp only [List.map_cons, List.map_nil, actualParms, argToks]
        rw [kind_et, show t.et = (Expect.a t).et from rfl, h3]
        simp [codeA]
      | cons e' es =>
        obtain ⟨N, hN⟩ := expr_after hv h1 s
          (rest := .comma :: (argToks (e' :: es) ++ .rparen :: rest)) ⟨rfl, rfl, rfl, by simp⟩ c
        obtain ⟨N', hN'⟩ := ih (e' :: es) h2 s rest (c ++ code g.level (.a t) e)
        refine ⟨max N N', fun n hn => ?_⟩
        have h3 := hN n (by omega)
        have h4 := hN' n (by omega)
        have hne : ts.map Ty.kind ≠ [] := by
          intro h; exact absurd (hlen.1 (List.map_eq_nil_iff.1 h)) (by simp)
        simp only [List.map_cons, actualParms, argToks, List.append_assoc, List.cons_append]
        rw [kind_et, show t.et = (Expect.a t).et from rfl, h3]
        simp only [Option.bind_eq_bind, Option.bind_some]
        rw [if_neg hne, expect_after, h4]
        simp [codeA]

theorem parse_call (hv : ∀ y, vars y → Usable g.level y) (hq : ∀ q, procs q → q.Ok g.level)
    (q : Proc) (args : List (E .expr)) : ParsesS g vars procs (.call q args) := by
  intro s l m x rest c b con hok hr hf hfo hop hm
  obtain ⟨hpq, ha⟩ := hok
  obtain ⟨_, q2, q3, q4⟩ := hq q hpq
  obtain ⟨N, hN⟩ := args_after hv q.parms args ha s rest (c ++ [lineI g m])
  have hlen : q.parms = [] ↔ args = [] := by
    revert ha; cases q.parms <;> cases args <;> simp [ParmsOk]
  have e0 : setL s (l + (S.call q args).nlab) (x.ro ++ (S.call q args).ro g.pad) = s := by
    have h1 := hr.label
    have h2 := hr.ro
    cases s; simp only at h1 h2; subst h1; subst h2; simp [setL, S.nlab, S.ro]
  have hpc : ArgsOk .pcal (((q.level + 1) % 65536 : Nat) : Int) (q.label : Int) :=
    ⟨fun _ => by omega, fun _ => by omega⟩
  have emod : (q.level + 1) % 65536 = q.level + 1 := by omega
  refine ⟨N + 1, fun n hn => ?_⟩
  obtain ⟨n, rfl⟩ : ∃ m, n = m + 1 := ⟨n - 1, by omega⟩
  have h1 := hN n (by omega)
  rw [e0]
  by_cases hn : args = []
  · have hp := hlen.2 hn
    subst hn
    obtain ⟨t, r, rfl, ht⟩ := hfo
    have hne : t ≠ .lparen := by
      simp only [List.mem_cons, List.not_mem_nil, or_false] at ht
      rcases ht with rfl | rfl | rfl | rfl | rfl <;> simp
    have hm' : (t :: r).length + 1 = m := by rw [hm]; simp [S.toks]; omega
    have ht' : (S.call q []).toks ++ t :: r =
        .proc ⟨q.level, q.label, q.parms.map Ty.kind⟩ :: t :: r := by simp [S.toks, Proc.tk]
    rw [ht', statement_proc, hm', procStatement, actualParameterList]
    simp only [after_next, after_tok, hp, List.map_nil, actualParms]
    rw [if_neg hne]
    simp only [ne_eq, not_true_eq_false, false_and, if_false, Option.bind_eq_bind, Option.bind_some,
      Option.pure_def, parmsSize, Nat.lt_irrefl]
    rw [if_neg hne, gen_after hpc, emod]
    simp [codeS, codeA, callCode, hp]
  · have hp : q.parms ≠ [] := fun h => hn (hlen.1 h)
    have ht' : (S.call q args).toks ++ rest =
        .proc ⟨q.level, q.label, q.parms.map Ty.kind⟩ :: .lparen ::
          (argToks args ++ .rparen :: rest) := by simp [S.toks, Proc.tk, hn]
    have hm' : (Tk.lparen :: (argToks args ++ .rparen :: rest)).length + 1 = m := by
      have : m = ((S.call q args).toks ++ rest).length := by rw [hm]; simp
      rw [this, ht']; simp
    have hpos : 1 ≤ q.parms.length := by
      cases h : q.parms with
      | nil => exact absurd h hp
      | cons _ _ => simp
    rw [ht', statement_proc, hm', procStatement, actualParameterList]
    simp only [after_next, after_tok, if_true, not_true_eq_false, and_false, if_false]
    rw [h1]
    simp only [Option.bind_eq_bind, Option.bind_some, Option.pure_def, parmsSize_kind]
    rw [if_pos (by omega), expect_after, gen_after hpc, genData_after (by omega), emod]
    simp [codeS, callCode, hp]

end Pas.Src
