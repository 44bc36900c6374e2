import Verif.Spec.Forever
import Verif.Props.Procedures

/-! An execution ends, goes on forever or goes wrong. -/
namespace Pas.Src

section
variable {P : Effects} {N : Endless}

/-- Neither ends nor goes wrong. -/
def Neither (P : Effects) (N : Endless) (c : Cmd) (σ : State) : Prop :=
  (¬ ∃ o τ, Exec P c σ o τ) ∧ ¬ Wrong P N c σ

theorem threefold (c : Cmd) (σ : State) :
    (∃ o τ, Exec P c σ o τ) ∨ Wrong P N c σ ∨ Neither P N c σ := by
  by_cases h : ∃ o τ, Exec P c σ o τ
  · exact .inl h
  · by_cases h' : Wrong P N c σ
    · exact .inr (.inl h')
    · exact .inr (.inr ⟨h, h'⟩)

/-- A condition is true, false or has no value. -/
theorem cond_three (e : E .expr) (σ : Store) :
    e.eval σ (.a .bool) = some (.bool true) ∨ e.eval σ (.a .bool) = some (.bool false) ∨
      ¬ ∃ b, e.eval σ (.a .bool) = some (.bool b) := by
  by_cases h : ∃ b, e.eval σ (.a .bool) = some (.bool b)
  · obtain ⟨b, h⟩ := h
    cases b
    · exact .inr (.inl h)
    · exact .inl h
  · exact .inr (.inr h)

theorem neither_goesOn (c : Cmd) (σ : State) (h : Neither P N c σ) : GoesOn P N (Neither P N) c σ := by
  obtain ⟨hE, hW⟩ := h
  cases c with
  | stmt st =>
    cases st with
    | empty => exact absurd ⟨_, _, .empty⟩ hE
    | assign x e =>
      cases he : e.eval σ.store (.a x.ty) with
      | none => exact absurd (.assign he) hW
      | some v => exact absurd ⟨_, _, .assign he⟩ hE
    | assignAt a i e =>
      by_cases h : ∃ w k v, i.eval σ.store (.a (.num .integer)) = some w ∧ a.pick w = some k ∧
          e.eval σ.store (.a a.ty) = some v
      · obtain ⟨w, k, v, h1, h2, h3⟩ := h
        exact absurd ⟨_, _, .assignAt h1 h2 h3⟩ hE
      · exact absurd (.assignAt h) hW
    | ifThen e s =>
      rcases cond_three e σ.store with h | h | h
      · rcases threefold (P := P) (N := N) (.stmt s) σ with ⟨o, τ, hx⟩ | hx | hx
        · exact absurd ⟨_, _, .thenTrue h hx⟩ hE
        · exact absurd (.thenTrue h hx) hW
        · exact .thenTrue h hx
      · exact absurd ⟨_, _, .thenFalse h⟩ hE
      · exact absurd (.thenCond h) hW
    | ifElse e s t =>
      rcases cond_three e σ.store with h | h | h
      · rcases threefold (P := P) (N := N) (.stmt s) σ with ⟨o, τ, hx⟩ | hx | hx
        · exact absurd ⟨_, _, .elseTrue h hx⟩ hE
        · exact absurd (.elseTrue h hx) hW
        · exact .elseTrue h hx
      · rcases threefold (P := P) (N := N) (.stmt t) σ with ⟨o, τ, hx⟩ | hx | hx
        · exact absurd ⟨_, _, .elseFalse h hx⟩ hE
        · exact absurd (.elseFalse h hx) hW
        · exact .elseFalse h hx
      · exact absurd (.elseCond h) hW
    | while_ e s =>
      rcases cond_three e σ.store with h | h | h
      · rcases threefold (P := P) (N := N) (.stmt s) σ with ⟨o, τ, hx⟩ | hx | hx
        · by_cases ho : o = .break_
          · subst ho
            exact absurd ⟨_, _, .whileBreak h hx⟩ hE
          · rcases threefold (P := P) (N := N) (.stmt (.while_ e s)) τ with ⟨o', υ, hy⟩ | hy | hy
            · exact absurd ⟨_, _, .whileNext h hx ho hy⟩ hE
            · exact absurd (.whileNext h hx ho hy) hW
            · exact .whileNext h hx ho hy
        · exact absurd (.whileBody h hx) hW
        · exact .whileBody h hx
      · exact absurd ⟨_, _, .whileEnd h⟩ hE
      · exact absurd (.whileCond h) hW
    | repeat_ l e =>
      rcases threefold (P := P) (N := N) (.list l) σ with ⟨o, τ, hx⟩ | hx | hx
      · by_cases ho : o = .break_
        · subst ho
          exact absurd ⟨_, _, .repeatBreak hx⟩ hE
        · rcases cond_three e τ.store with h | h | h
          · exact absurd ⟨_, _, .repeatEnd hx ho h⟩ hE
          · rcases threefold (P := P) (N := N) (.stmt (.repeat_ l e)) τ with ⟨o', υ, hy⟩ | hy | hy
            · exact absurd ⟨_, _, .repeatNext hx ho h hy⟩ hE
            · exact absurd (.repeatNext hx ho h hy) hW
            · exact .repeatNext hx ho h hy
          · exact absurd (.repeatCond hx ho h) hW
      · exact absurd (.repeatBody hx) hW
      · exact .repeatBody hx
    | for_ x down a c s =>
      by_cases h : ∃ t i hi, a.eval σ.store (.a x.ty) = some (.num t i) ∧
          c.eval σ.store (.a x.ty) = some (.num t hi) ∧ Countable t down i hi
      · obtain ⟨t, i, hi, h1, h2, h3⟩ := h
        rcases threefold (P := P) (N := N) (.loop x t down i hi s) (σ.set x (.num t i)) with ⟨o, τ, hx⟩ | hx | hx
        · exact absurd ⟨_, _, .for_ h1 h2 h3 hx⟩ hE
        · exact absurd (.for_ h1 h2 h3 hx) hW
        · exact .for_ h1 h2 h3 hx
      · exact absurd (.forBounds h) hW
    | case_ e cs =>
      cases he : e.eval σ.store .ordinal with
      | none => exact absurd (.caseValue he) hW
      | some v =>
        rcases threefold (P := P) (N := N) (.cases v cs) σ with ⟨o, τ, hx⟩ | hx | hx
        · exact absurd ⟨_, _, .case_ he hx⟩ hE
        · exact absurd (.case_ he hx) hW
        · exact .case_ he hx
    | block l =>
      rcases threefold (P := P) (N := N) (.list l) σ with ⟨o, τ, hx⟩ | hx | hx
      · exact absurd ⟨_, _, .block hx⟩ hE
      · exact absurd (.block hx) hW
      · exact .block hx
    | break_ => exact absurd ⟨_, _, .break_⟩ hE
    | continue_ => exact absurd ⟨_, _, .continue_⟩ hE
    | write ln file i is =>
      by_cases h : ∃ old text, σ.out = some old ∧ Texts σ.store (i :: is) text
      · obtain ⟨old, text, h1, h2⟩ := h
        exact absurd ⟨_, _, .write h1 h2⟩ hE
      · exact absurd (.write h) hW
    | newline parens =>
      cases h : σ.out with
      | none => exact absurd (.newline h) hW
      | some old => exact absurd ⟨_, _, .newline h⟩ hE
    | read ln file x xs =>
      cases ln with
      | false =>
        by_cases h : ∃ τ, ReadVars (x :: xs) σ τ
        · obtain ⟨τ, h⟩ := h
          exact absurd ⟨_, _, .read h⟩ hE
        · exact absurd (.read h) hW
      | true =>
        by_cases h : ∃ τ υ, ReadVars (x :: xs) σ τ ∧ NextLine τ υ
        · obtain ⟨τ, υ, h1, h2⟩ := h
          exact absurd ⟨_, _, .readln h1 h2⟩ hE
        · exact absurd (.readln h) hW
    | skipLine parens =>
      by_cases h : ∃ τ, NextLine σ τ
      · obtain ⟨τ, h⟩ := h
        exact absurd ⟨_, _, .skipLine h⟩ hE
      · exact absurd (.skipLine h) hW
    | call q args =>
      cases ha : argVals σ.store q.parms args with
      | none => exact absurd (.callArgs ha) hW
      | some vs =>
        by_cases h : ∃ τ, P q vs σ τ
        · obtain ⟨τ, h⟩ := h
          exact absurd ⟨_, _, .call ha h⟩ hE
        · by_cases h' : N q vs σ
          · exact .call ha h'
          · exact absurd (.call ha h h') hW
  | list l =>
    cases l with
    | one s =>
      rcases threefold (P := P) (N := N) (.stmt s) σ with ⟨o, τ, hx⟩ | hx | hx
      · exact absurd ⟨_, _, .one hx⟩ hE
      · exact absurd (.one hx) hW
      · exact .one hx
    | cons s l =>
      rcases threefold (P := P) (N := N) (.stmt s) σ with ⟨o, τ, hx⟩ | hx | hx
      · by_cases ho : o = .normal
        · subst ho
          rcases threefold (P := P) (N := N) (.list l) τ with ⟨o', υ, hy⟩ | hy | hy
          · exact absurd ⟨_, _, .cons hx hy⟩ hE
          · exact absurd (.consNext hx hy) hW
          · exact .consNext hx hy
        · exact absurd ⟨_, _, .consStop hx ho⟩ hE
      · exact absurd (.consFirst hx) hW
      · exact .consFirst hx
  | cases v cs =>
    cases cs with
    | last k ks s semi =>
      by_cases h : ∃ c ∈ k :: ks, c.is v
      · rcases threefold (P := P) (N := N) (.stmt s) σ with ⟨o, τ, hx⟩ | hx | hx
        · exact absurd ⟨_, _, .lastYes h hx⟩ hE
        · exact absurd (.lastYes h hx) hW
        · exact .lastYes h hx
      · exact absurd ⟨_, _, .lastNo h⟩ hE
    | more k ks s cs =>
      by_cases h : ∃ c ∈ k :: ks, c.is v
      · rcases threefold (P := P) (N := N) (.stmt s) σ with ⟨o, τ, hx⟩ | hx | hx
        · exact absurd ⟨_, _, .moreYes h hx⟩ hE
        · exact absurd (.moreYes h hx) hW
        · exact .moreYes h hx
      · rcases threefold (P := P) (N := N) (.cases v cs) σ with ⟨o, τ, hx⟩ | hx | hx
        · exact absurd ⟨_, _, .moreNo h hx⟩ hE
        · exact absurd (.moreNo h hx) hW
        · exact .moreNo h hx
    | otherwise s semi =>
      rcases threefold (P := P) (N := N) (.stmt s) σ with ⟨o, τ, hx⟩ | hx | hx
      · exact absurd ⟨_, _, .otherwise hx⟩ hE
      · exact absurd (.otherwise hx) hW
      · exact .otherwise hx
  | loop x t down i hi s =>
    by_cases h : goesOn down i hi
    · rcases threefold (P := P) (N := N) (.stmt s) σ with ⟨o, τ, hx⟩ | hx | hx
      · by_cases ho : o = .break_
        · subst ho
          exact absurd ⟨_, _, .loopBreak h hx⟩ hE
        · by_cases hτ : τ.store x = some (.num t (wrap t i))
          · rcases threefold (P := P) (N := N) (.loop x t down (after1 down i) hi s)
              (τ.set x (.num t (wrap t (after1 down i)))) with ⟨o', υ, hy⟩ | hy | hy
            · exact absurd ⟨_, _, .loopNext h hx ho hτ hy⟩ hE
            · exact absurd (.loopNext h hx ho hτ hy) hW
            · exact .loopNext h hx ho hτ hy
          · exact absurd (.loopVar h hx ho hτ) hW
      · exact absurd (.loopBody h hx) hW
      · exact .loopBody h hx
    · exact absurd ⟨_, _, .loopEnd h⟩ hE

/-- What goes on forever does not end. -/
theorem not_ends (hP : ∀ q vs σ τ τ', P q vs σ τ → P q vs σ τ' → τ = τ') (hN : ∀ q vs σ τ, N q vs σ → ¬ P q vs σ τ)
    {X : Cmd → State → Prop} (hX : ∀ c σ, X c σ → GoesOn P N X c σ) {c : Cmd} {σ τ : State} {o : Outcome}
    (h : Exec P c σ o τ) : ¬ X c σ := by
  induction h with
  | empty | assign _ | assignAt _ _ _ | break_ | continue_ | write _ _ | newline _ | read _ | readln _ _ | skipLine _ =>
    intro hx; cases hX _ _ hx
  | thenTrue h _ ih => intro hx; cases hX _ _ hx with | thenTrue _ hx => exact ih hx
  | thenFalse h =>
    intro hx
    cases hX _ _ hx with | thenTrue h' _ => rw [h] at h'; cases h'
  | elseTrue h _ ih =>
    intro hx
    cases hX _ _ hx with
    | elseTrue _ hx => exact ih hx
    | elseFalse h' _ => rw [h] at h'; cases h'
  | elseFalse h _ ih =>
    intro hx
    cases hX _ _ hx with
    | elseFalse _ hx => exact ih hx
    | elseTrue h' _ => rw [h] at h'; cases h'
  | whileEnd h =>
    intro hx
    cases hX _ _ hx with
    | whileBody h' _ => rw [h] at h'; cases h'
    | whileNext h' _ _ _ => rw [h] at h'; cases h'
  | whileBreak h he ih =>
    intro hx
    cases hX _ _ hx with
    | whileBody _ hx => exact ih hx
    | whileNext _ he' ho _ => exact ho (C49_deterministic hP he' he).1
  | whileNext h he ho _ ih ih' =>
    intro hx
    cases hX _ _ hx with
    | whileBody _ hx => exact ih hx
    | whileNext _ he' _ hx => exact ih' ((C49_deterministic hP he' he).2 ▸ hx)
  | repeatEnd he ho h ih =>
    intro hx
    cases hX _ _ hx with
    | repeatBody hx => exact ih hx
    | repeatNext he' _ h' _ => rw [(C49_deterministic hP he' he).2, h] at h'; cases h'
  | repeatBreak he ih =>
    intro hx
    cases hX _ _ hx with
    | repeatBody hx => exact ih hx
    | repeatNext he' ho _ _ => exact ho (C49_deterministic hP he' he).1
  | repeatNext he _ _ _ ih ih' =>
    intro hx
    cases hX _ _ hx with
    | repeatBody hx => exact ih hx
    | repeatNext he' _ _ hx => exact ih' ((C49_deterministic hP he' he).2 ▸ hx)
  | for_ h1 h2 _ _ ih =>
    intro hx
    cases hX _ _ hx with
    | for_ h1' h2' _ hx =>
      rw [h1] at h1'; rw [h2] at h2'
      cases h1'; cases h2'
      exact ih hx
  | loopEnd h =>
    intro hx
    cases hX _ _ hx with
    | loopBody h' _ => exact h h'
    | loopNext h' _ _ _ _ => exact h h'
  | loopBreak _ he ih =>
    intro hx
    cases hX _ _ hx with
    | loopBody _ hx => exact ih hx
    | loopNext _ he' ho _ _ => exact ho (C49_deterministic hP he' he).1
  | loopNext _ he _ _ _ ih ih' =>
    intro hx
    cases hX _ _ hx with
    | loopBody _ hx => exact ih hx
    | loopNext _ he' _ _ hx => exact ih' ((C49_deterministic hP he' he).2 ▸ hx)
  | case_ h _ ih =>
    intro hx
    cases hX _ _ hx with
    | case_ h' hx => rw [h] at h'; cases h'; exact ih hx
  | block _ ih => intro hx; cases hX _ _ hx with | block hx => exact ih hx
  | call h1 h2 =>
    intro hx
    cases hX _ _ hx with
    | call h1' h3 => rw [h1] at h1'; cases h1'; exact hN _ _ _ _ h3 h2
  | one _ ih => intro hx; cases hX _ _ hx with | one hx => exact ih hx
  | consStop he ho ih =>
    intro hx
    cases hX _ _ hx with
    | consFirst hx => exact ih hx
    | consNext he' _ => exact ho (C49_deterministic hP he' he).1.symm
  | cons he _ ih ih' =>
    intro hx
    cases hX _ _ hx with
    | consFirst hx => exact ih hx
    | consNext he' hx => exact ih' ((C49_deterministic hP he' he).2 ▸ hx)
  | lastYes _ _ ih => intro hx; cases hX _ _ hx with | lastYes _ hx => exact ih hx
  | lastNo h => intro hx; cases hX _ _ hx with | lastYes h' _ => exact h h'
  | moreYes h _ ih =>
    intro hx
    cases hX _ _ hx with
    | moreYes _ hx => exact ih hx
    | moreNo h' _ => exact h' h
  | moreNo h _ ih =>
    intro hx
    cases hX _ _ hx with
    | moreYes h' _ => exact h h'
    | moreNo _ hx => exact ih hx
  | otherwise _ ih => intro hx; cases hX _ _ hx with | otherwise hx => exact ih hx

/-- What goes wrong neither ends nor goes on forever. -/
theorem wrong_only (hP : ∀ q vs σ τ τ', P q vs σ τ → P q vs σ τ' → τ = τ')
    (hN : ∀ q vs σ τ, N q vs σ → ¬ P q vs σ τ)
    {X : Cmd → State → Prop} (hX : ∀ c σ, X c σ → GoesOn P N X c σ) {c : Cmd} {σ : State}
    (h : Wrong P N c σ) : ¬ X c σ ∧ ∀ o τ, ¬ Exec P c σ o τ := by
  induction h with
  | assign h =>
    refine ⟨(fun hx => by cases hX _ _ hx), fun o τ he => ?_⟩
    cases he with | assign h' => rw [h] at h'; cases h'
  | assignAt h =>
    refine ⟨(fun hx => by cases hX _ _ hx), fun o τ he => ?_⟩
    cases he with | assignAt h1 h2 h3 => exact h ⟨_, _, _, h1, h2, h3⟩
  | thenCond h =>
    refine ⟨fun hx => ?_, fun o τ he => ?_⟩
    · cases hX _ _ hx with | thenTrue h' _ => exact h ⟨_, h'⟩
    · cases he with
      | thenTrue h' _ => exact h ⟨_, h'⟩
      | thenFalse h' => exact h ⟨_, h'⟩
  | thenTrue h _ ih =>
    refine ⟨fun hx => ?_, fun o τ he => ?_⟩
    · cases hX _ _ hx with | thenTrue h' hx => exact ih.1 hx
    · cases he with
      | thenTrue h' he => exact ih.2 _ _ he
      | thenFalse h' => rw [h] at h'; cases h'
  | elseCond h =>
    refine ⟨fun hx => ?_, fun o τ he => ?_⟩
    · cases hX _ _ hx with
      | elseTrue h' _ => exact h ⟨_, h'⟩
      | elseFalse h' _ => exact h ⟨_, h'⟩
    · cases he with
      | elseTrue h' _ => exact h ⟨_, h'⟩
      | elseFalse h' _ => exact h ⟨_, h'⟩
  | elseTrue h _ ih =>
    refine ⟨fun hx => ?_, fun o τ he => ?_⟩
    · cases hX _ _ hx with
      | elseTrue h' hx => exact ih.1 hx
      | elseFalse h' _ => rw [h] at h'; cases h'
    · cases he with
      | elseTrue h' he => exact ih.2 _ _ he
      | elseFalse h' _ => rw [h] at h'; cases h'
  | elseFalse h _ ih =>
    refine ⟨fun hx => ?_, fun o τ he => ?_⟩
    · cases hX _ _ hx with
      | elseFalse h' hx => exact ih.1 hx
      | elseTrue h' _ => rw [h] at h'; cases h'
    · cases he with
      | elseFalse h' he => exact ih.2 _ _ he
      | elseTrue h' _ => rw [h] at h'; cases h'
  | whileCond h =>
    refine ⟨fun hx => ?_, fun o τ he => ?_⟩
    · cases hX _ _ hx with
      | whileBody h' _ => exact h ⟨_, h'⟩
      | whileNext h' _ _ _ => exact h ⟨_, h'⟩
    · cases he with
      | whileEnd h' => exact h ⟨_, h'⟩
      | whileBreak h' _ => exact h ⟨_, h'⟩
      | whileNext h' _ _ _ => exact h ⟨_, h'⟩
  | whileBody h _ ih =>
    refine ⟨fun hx => ?_, fun o τ he => ?_⟩
    · cases hX _ _ hx with
      | whileBody h' hx => exact ih.1 hx
      | whileNext h' he _ _ => exact ih.2 _ _ he
    · cases he with
      | whileEnd h' => rw [h] at h'; cases h'
      | whileBreak h' he => exact ih.2 _ _ he
      | whileNext h' he _ _ => exact ih.2 _ _ he
  | whileNext h he ho _ ih =>
    refine ⟨fun hx => ?_, fun o τ hy => ?_⟩
    · cases hX _ _ hx with
      | whileBody _ hx => exact not_ends hP hN hX he hx
      | whileNext _ he' _ hx => exact ih.1 ((C49_deterministic hP he' he).2 ▸ hx)
    · cases hy with
      | whileEnd h' => rw [h] at h'; cases h'
      | whileBreak _ he' => exact ho (C49_deterministic hP he he').1
      | whileNext _ he' _ hy => exact ih.2 _ _ ((C49_deterministic hP he' he).2 ▸ hy)
  | repeatBody _ ih =>
    refine ⟨fun hx => ?_, fun o τ he => ?_⟩
    · cases hX _ _ hx with
      | repeatBody hx => exact ih.1 hx
      | repeatNext he _ _ _ => exact ih.2 _ _ he
    · cases he with
      | repeatEnd he _ _ => exact ih.2 _ _ he
      | repeatBreak he => exact ih.2 _ _ he
      | repeatNext he _ _ _ => exact ih.2 _ _ he
  | repeatCond he ho h =>
    refine ⟨fun hx => ?_, fun o τ hy => ?_⟩
    · cases hX _ _ hx with
      | repeatBody hx => exact not_ends hP hN hX he hx
      | repeatNext he' _ h' _ => rw [(C49_deterministic hP he' he).2] at h'; exact h ⟨_, h'⟩
    · cases hy with
      | repeatEnd he' _ h' => rw [(C49_deterministic hP he' he).2] at h'; exact h ⟨_, h'⟩
      | repeatBreak he' => exact ho (C49_deterministic hP he he').1
      | repeatNext he' _ h' _ => rw [(C49_deterministic hP he' he).2] at h'; exact h ⟨_, h'⟩
  | repeatNext he ho h _ ih =>
    refine ⟨fun hx => ?_, fun o τ hy => ?_⟩
    · cases hX _ _ hx with
      | repeatBody hx => exact not_ends hP hN hX he hx
      | repeatNext he' _ h' hx => exact ih.1 ((C49_deterministic hP he' he).2 ▸ hx)
    · cases hy with
      | repeatEnd he' _ h' => rw [(C49_deterministic hP he' he).2, h] at h'; cases h'
      | repeatBreak he' => exact ho (C49_deterministic hP he he').1
      | repeatNext he' _ h' hy => exact ih.2 _ _ ((C49_deterministic hP he' he).2 ▸ hy)
  | forBounds h =>
    refine ⟨fun hx => ?_, fun o τ he => ?_⟩
    · cases hX _ _ hx with | for_ h1 h2 h3 _ => exact h ⟨_, _, _, h1, h2, h3⟩
    · cases he with | for_ h1 h2 h3 _ => exact h ⟨_, _, _, h1, h2, h3⟩
  | for_ h1 h2 _ _ ih =>
    refine ⟨fun hx => ?_, fun o τ he => ?_⟩
    · cases hX _ _ hx with
      | for_ h1' h2' _ hx =>
        rw [h1] at h1'; rw [h2] at h2'
        cases h1'; cases h2'
        exact ih.1 hx
    · cases he with
      | for_ h1' h2' _ he =>
        rw [h1] at h1'; rw [h2] at h2'
        cases h1'; cases h2'
        exact ih.2 _ _ he
  | loopBody h _ ih =>
    refine ⟨fun hx => ?_, fun o τ he => ?_⟩
    · cases hX _ _ hx with
      | loopBody _ hx => exact ih.1 hx
      | loopNext _ he _ _ _ => exact ih.2 _ _ he
    · cases he with
      | loopEnd h' => exact h' h
      | loopBreak _ he => exact ih.2 _ _ he
      | loopNext _ he _ _ _ => exact ih.2 _ _ he
  | loopVar h he ho hv =>
    refine ⟨fun hx => ?_, fun o τ hy => ?_⟩
    · cases hX _ _ hx with
      | loopBody _ hx => exact not_ends hP hN hX he hx
      | loopNext _ he' _ hv' _ => rw [(C49_deterministic hP he' he).2] at hv'; exact hv hv'
    · cases hy with
      | loopEnd h' => exact h' h
      | loopBreak _ he' => exact ho (C49_deterministic hP he he').1
      | loopNext _ he' _ hv' _ => rw [(C49_deterministic hP he' he).2] at hv'; exact hv hv'
  | loopNext h he ho _ _ ih =>
    refine ⟨fun hx => ?_, fun o τ hy => ?_⟩
    · cases hX _ _ hx with
      | loopBody _ hx => exact not_ends hP hN hX he hx
      | loopNext _ he' _ _ hx => exact ih.1 ((C49_deterministic hP he' he).2 ▸ hx)
    · cases hy with
      | loopEnd h' => exact h' h
      | loopBreak _ he' => exact ho (C49_deterministic hP he he').1
      | loopNext _ he' _ _ hy => exact ih.2 _ _ ((C49_deterministic hP he' he).2 ▸ hy)
  | caseValue h =>
    refine ⟨fun hx => ?_, fun o τ he => ?_⟩
    · cases hX _ _ hx with | case_ h' _ => rw [h] at h'; cases h'
    · cases he with | case_ h' _ => rw [h] at h'; cases h'
  | case_ h _ ih =>
    refine ⟨fun hx => ?_, fun o τ he => ?_⟩
    · cases hX _ _ hx with | case_ h' hx => rw [h] at h'; cases h'; exact ih.1 hx
    · cases he with | case_ h' he => rw [h] at h'; cases h'; exact ih.2 _ _ he
  | block _ ih =>
    refine ⟨fun hx => ?_, fun o τ he => ?_⟩
    · cases hX _ _ hx with | block hx => exact ih.1 hx
    · cases he with | block he => exact ih.2 _ _ he
  | write h =>
    refine ⟨(fun hx => by cases hX _ _ hx), fun o τ he => ?_⟩
    cases he with | write h1 h2 => exact h ⟨_, _, h1, h2⟩
  | newline h =>
    refine ⟨(fun hx => by cases hX _ _ hx), fun o τ he => ?_⟩
    cases he with | newline h' => rw [h] at h'; cases h'
  | read h =>
    refine ⟨(fun hx => by cases hX _ _ hx), fun o τ he => ?_⟩
    cases he with | read h' => exact h ⟨_, h'⟩
  | readln h =>
    refine ⟨(fun hx => by cases hX _ _ hx), fun o τ he => ?_⟩
    cases he with | readln h1 h2 => exact h ⟨_, _, h1, h2⟩
  | skipLine h =>
    refine ⟨(fun hx => by cases hX _ _ hx), fun o τ he => ?_⟩
    cases he with | skipLine h' => exact h ⟨_, h'⟩
  | callArgs h =>
    refine ⟨fun hx => ?_, fun o τ he => ?_⟩
    · cases hX _ _ hx with | call h' _ => rw [h] at h'; cases h'
    · cases he with | call h' _ => rw [h] at h'; cases h'
  | call h h1 h2 =>
    refine ⟨fun hx => ?_, fun o τ he => ?_⟩
    · cases hX _ _ hx with | call h' h3 => rw [h] at h'; cases h'; exact h2 h3
    · cases he with | call h' h3 => rw [h] at h'; cases h'; exact h1 ⟨_, h3⟩
  | one _ ih =>
    refine ⟨fun hx => ?_, fun o τ he => ?_⟩
    · cases hX _ _ hx with | one hx => exact ih.1 hx
    · cases he with | one he => exact ih.2 _ _ he
  | consFirst _ ih =>
    refine ⟨fun hx => ?_, fun o τ he => ?_⟩
    · cases hX _ _ hx with
      | consFirst hx => exact ih.1 hx
      | consNext he _ => exact ih.2 _ _ he
    · cases he with
      | consStop he _ => exact ih.2 _ _ he
      | cons he _ => exact ih.2 _ _ he
  | consNext he _ ih =>
    refine ⟨fun hx => ?_, fun o τ hy => ?_⟩
    · cases hX _ _ hx with
      | consFirst hx => exact not_ends hP hN hX he hx
      | consNext he' hx => exact ih.1 ((C49_deterministic hP he' he).2 ▸ hx)
    · cases hy with
      | consStop he' ho => exact ho (C49_deterministic hP he he').1.symm
      | cons he' hy => exact ih.2 _ _ ((C49_deterministic hP he' he).2 ▸ hy)
  | lastYes h _ ih =>
    refine ⟨fun hx => ?_, fun o τ he => ?_⟩
    · cases hX _ _ hx with | lastYes _ hx => exact ih.1 hx
    · cases he with
      | lastYes _ he => exact ih.2 _ _ he
      | lastNo h' => exact h' h
  | moreYes h _ ih =>
    refine ⟨fun hx => ?_, fun o τ he => ?_⟩
    · cases hX _ _ hx with
      | moreYes _ hx => exact ih.1 hx
      | moreNo h' _ => exact h' h
    · cases he with
      | moreYes _ he => exact ih.2 _ _ he
      | moreNo h' _ => exact h' h
  | moreNo h _ ih =>
    refine ⟨fun hx => ?_, fun o τ he => ?_⟩
    · cases hX _ _ hx with
      | moreNo _ hx => exact ih.1 hx
      | moreYes h' _ => exact h h'
    · cases he with
      | moreNo _ he => exact ih.2 _ _ he
      | moreYes h' _ => exact h h'
  | otherwise _ ih =>
    refine ⟨fun hx => ?_, fun o τ he => ?_⟩
    · cases hX _ _ hx with | otherwise hx => exact ih.1 hx
    · cases he with | otherwise he => exact ih.2 _ _ he

theorem calls_ends_not (D : Decls) : ∀ d q vs σ τ, CallsForever D d q vs σ → ¬ Calls D d q vs σ τ
  | 0, _, _, _, _, h => h.elim
  | d + 1, _, _, _, _, ⟨decl, h1, X, hx, hX⟩ => by
    intro ⟨decl', υ, h1', h2, _⟩
    rw [h1] at h1'
    cases h1'
    exact not_ends (calls_deterministic D d) (calls_ends_not D d) hX h2 hx

end

end Pas.Src
