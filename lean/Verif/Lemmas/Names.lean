import Verif.Spec.Names

/-! Lemmas about names, the reserved word table and the symbol table. -/

namespace Pas.Names

open Pas.Spec (upper SameName Env event history meaning programEnv Complete)

theorem lower_upper (a b : Byte) : lower a = lower b ↔ upper a = upper b := by
  have := a.isLt; have := b.isLt
  constructor <;> (unfold lower upper; intro h; split <;> split <;> split at h <;> split at h <;> bv_omega)

theorem strcasecmp_eq (a b : List Byte) : strcasecmp a b = .eq ↔ SameName a b := by
  unfold SameName
  induction a generalizing b with
  | nil => cases b <;> simp [strcasecmp]
  | cons x xs ih =>
    cases b with
    | nil => simp [strcasecmp]
    | cons y ys =>
      have h := lower_upper x y
      simp only [strcasecmp, List.map_cons, List.cons.injEq, ← ih, ← h]
      split
      · rename_i hlt
        simp; intro he; rw [he] at hlt; bv_omega
      · split
        · rename_i hlt
          simp; intro he; rw [he] at hlt; bv_omega
        · rename_i h1 h2
          have : lower x = lower y := by bv_omega
          simp [this]

/-- Being before, in the order the comparison uses. -/
def Lt (a b : List Byte) : Prop := strcasecmp a b = .lt

instance (a b : List Byte) : Decidable (Lt a b) := inferInstanceAs (Decidable (_ = _))

theorem lt_trans {a b c : List Byte} (h : strcasecmp a b ≠ .gt) (h' : Lt b c) : Lt a c := by
  unfold Lt at *
  induction a generalizing b c with
  | nil =>
    cases c with
    | nil => cases b <;> simp [strcasecmp] at h'
    | cons => rfl
  | cons x xs ih =>
    cases b with
    | nil => simp [strcasecmp] at h
    | cons y ys =>
      cases c with
      | nil => simp [strcasecmp] at h'
      | cons z zs =>
        simp only [strcasecmp] at *
        by_cases h1 : lower x < lower y
        · by_cases h2 : lower y < lower z
          · rw [if_pos (by bv_omega)]
          · rw [if_neg h2] at h'
            split at h'
            · cases h'
            · rw [if_pos (by bv_omega)]
        · rw [if_neg h1] at h
          split at h
          · exact absurd rfl h
          have he : lower x = lower y := by bv_omega
          rw [he]
          split
          · rfl
          · rename_i h2
            rw [if_neg h2] at h'
            split at h'
            · cases h'
            · rw [if_neg (by assumption)]
              exact ih (by simpa using h) h'

theorem gt_lt (a b : List Byte) : strcasecmp a b = .gt ↔ strcasecmp b a = .lt := by
  induction a generalizing b with
  | nil => cases b <;> simp [strcasecmp]
  | cons x xs ih =>
    cases b with
    | nil => simp [strcasecmp]
    | cons y ys =>
      simp only [strcasecmp]
      split
      · rw [if_neg (by bv_omega)]; simp
      · split
        · simp
        · exact ih ys

/-- The table is in order: every word before all the later ones. -/
theorem reserved_sorted : reserved.Pairwise fun a b => Lt a.name b.name := by
  decide +kernel

theorem aliases_sorted : aliases.Pairwise fun a b => Lt a.1 b.1 := by
  decide +kernel

theorem findReserved_go (name : List Byte) (l : List RWord)
    (hs : l.Pairwise fun a b => Lt a.name b.name) (w : RWord) :
    findReserved.go name l = some w ↔ w ∈ l ∧ SameName w.name name := by
  induction l with
  | nil => simp [findReserved.go]
  | cons v l ih =>
    rw [List.pairwise_cons] at hs
    rw [findReserved.go]
    cases hc : strcasecmp v.name name with
    | eq =>
      have hv := (strcasecmp_eq _ _).1 hc
      constructor
      · intro h; cases h; exact ⟨by simp, hv⟩
      · rintro ⟨hm, hw⟩
        rcases List.mem_cons.1 hm with h | h
        · rw [h]
        · exfalso
          have hlt := hs.1 w h
          have : SameName v.name w.name := by unfold SameName at *; rw [hv, hw]
          rw [← strcasecmp_eq] at this
          unfold Lt at hlt; rw [this] at hlt; cases hlt
    | gt =>
      constructor
      · intro h; cases h
      · rintro ⟨hm, hw⟩
        exfalso
        rw [gt_lt] at hc
        have hw' : strcasecmp w.name name = .eq := (strcasecmp_eq _ _).2 hw
        rcases List.mem_cons.1 hm with h | h
        · subst h; rw [← gt_lt, hw'] at hc; cases hc
        · have := lt_trans (a := name) (by rw [hc]; simp) (hs.1 w h)
          unfold Lt at this; rw [← gt_lt, hw'] at this; cases this
    | lt =>
      simp only
      rw [ih hs.2]
      constructor
      · rintro ⟨h, h'⟩; exact ⟨by simp [h], h'⟩
      · rintro ⟨hm, hw⟩
        rcases List.mem_cons.1 hm with h | h
        · subst h; rw [(strcasecmp_eq _ _).2 hw] at hc; cases hc
        · exact ⟨h, hw⟩

theorem mapToAlias_go (name : List Byte) (l : List (List Byte × List Byte))
    (hs : l.Pairwise fun a b => Lt a.1 b.1) :
    (∀ p ∈ l, SameName p.1 name → mapToAlias.go name l = p.2) ∧
    ((∀ p ∈ l, ¬ SameName p.1 name) → mapToAlias.go name l = name) := by
  induction l with
  | nil => simp [mapToAlias.go]
  | cons v l ih =>
    obtain ⟨alt, rsw⟩ := v
    rw [List.pairwise_cons] at hs
    have ih := ih hs.2
    rw [mapToAlias.go]
    cases hc : strcasecmp alt name with
    | eq =>
      have hv := (strcasecmp_eq _ _).1 hc
      refine ⟨?_, fun h => absurd hv (h (alt, rsw) (by simp))⟩
      intro p hp hw
      rcases List.mem_cons.1 hp with h | h
      · rw [h]
      · exfalso
        have hlt := hs.1 p h
        have : SameName alt p.1 := by unfold SameName at *; rw [hv, hw]
        rw [← strcasecmp_eq] at this
        unfold Lt at hlt; simp only [this] at hlt; cases hlt
    | gt =>
      refine ⟨?_, fun _ => rfl⟩
      intro p hp hw
      exfalso
      rw [gt_lt] at hc
      have hw' : strcasecmp p.1 name = .eq := (strcasecmp_eq _ _).2 hw
      rcases List.mem_cons.1 hp with h | h
      · subst h; rw [← gt_lt, hw'] at hc; cases hc
      · have := lt_trans (a := name) (by rw [hc]; simp) (hs.1 p h)
        unfold Lt at this; rw [← gt_lt, hw'] at this; cases this
    | lt =>
      refine ⟨?_, fun h => ih.2 fun p hp => h p (by simp [hp])⟩
      intro p hp hw
      rcases List.mem_cons.1 hp with h | h
      · subst h; rw [(strcasecmp_eq _ _).2 hw] at hc; cases hc
      · exact ih.1 p h hw

/-! ### The symbol table -/

/-- The entry of a declaration. -/
def ofDecl (d : Decl) : Entry := ⟨some d.name, d.kind, d.value⟩

/-- The declarations a table represents. -/
def decls (tab : List Entry) : List Decl := tab.filterMap toDecl

theorem toDecl_ofDecl (d : Decl) : toDecl (ofDecl d) = some d := rfl

theorem decls_append (a b : List Entry) : decls (a ++ b) = decls a ++ decls b := by
  simp [decls]

theorem decls_map (ds : List Decl) : decls (ds.map ofDecl) = ds := by
  simp [decls, List.filterMap_map, Function.comp_def, toDecl_ofDecl]

/-- The test that the search makes. -/
def isIt (name : List Byte) (rec : Bool) (d : Decl) : Bool :=
  decide (SameName d.name name) && (d.kind == 0x59) == rec

/-- The same test on entries. -/
def hit (name : List Byte) (rec : Bool) (e : Entry) : Bool :=
  match toDecl e with
  | some d => isIt name rec d
  | none => false

/-- A single downward search. -/
def scan (tab : List Entry) (off : Nat) (p : Entry → Bool) : Nat → Option Entry
  | 0 => none
  | i + 1 =>
    if i < off then none
    else
      match tab[i]? with
      | some e => if p e then some e else scan tab off p i
      | none => scan tab off p i

theorem symbolLoop_scan (tab : List Entry) (name : List Byte) (off : Nat) (rec : Bool) (last : Nat) :
    ∀ fuel, last < fuel → symbolLoop tab name off rec fuel last = scan tab off (hit name rec) last := by
  induction last with
  | zero =>
    intro fuel h
    obtain ⟨f, rfl⟩ : ∃ f, fuel = f + 1 := ⟨fuel - 1, by omega⟩
    simp [symbolLoop, findNext, scan]
  | succ i ih =>
    intro fuel h
    obtain ⟨f, rfl⟩ : ∃ f, fuel = f + 1 := ⟨fuel - 1, by omega⟩
    rw [scan]
    have ih1 := ih (f + 1) (by omega)
    by_cases ho : i < off
    · rw [if_pos ho, symbolLoop, findNext, if_pos ho]
    · rw [if_neg ho]
      cases he : tab[i]? with
      | none =>
        rw [symbolLoop, findNext, if_neg ho, he]
        rw [symbolLoop] at ih1
        exact ih1
      | some e =>
        cases hn : e.name with
        | none =>
          have : hit name rec e = false := by simp [hit, toDecl, hn]
          simp only [this]
          rw [symbolLoop, findNext, if_neg ho, he]
          simp only [hn]
          rw [symbolLoop] at ih1
          exact ih1
        | some n =>
          by_cases hs : strcasecmp n name = .eq
          · have hs' := (strcasecmp_eq _ _).1 hs
            have hh : hit name rec e = ((e.kind == 0x59) == rec) := by
              simp [hit, toDecl, hn, isIt, hs']
            simp only [hh]
            rw [symbolLoop, findNext, if_neg ho, he]
            simp only [hn, hs, if_true, recordObject]
            have e1 := ih f (by omega)
            rw [e1]
            by_cases hk : e.kind = 0x59 <;> cases rec <;> simp [hk]
          · have hs' : ¬ SameName n name := fun h => hs ((strcasecmp_eq _ _).2 h)
            have : hit name rec e = false := by simp [hit, toDecl, hn, isIt, hs']
            simp only [this]
            rw [symbolLoop, findNext, if_neg ho, he]
            simp only [hn, hs, if_false]
            rw [symbolLoop] at ih1
            exact ih1

theorem scan_find (tab : List Entry) (off : Nat) (p : Entry → Bool) (n : Nat) (hn : n ≤ tab.length) :
    scan tab off p n = ((tab.take n).drop off).reverse.find? p := by
  induction n with
  | zero => simp [scan]
  | succ i ih =>
    have hi : i < tab.length := by omega
    rw [scan]
    by_cases ho : i < off
    · rw [if_pos ho, List.drop_eq_nil_of_le (by simp; omega)]; rfl
    · rw [if_neg ho, List.getElem?_eq_getElem hi, ih (by omega)]
      rw [List.take_succ_eq_append_getElem hi, List.drop_append_of_le_length (by simp; omega),
        List.reverse_append]
      simp [List.find?_cons]
      split <;> simp_all

theorem find_decls (name : List Byte) (rec : Bool) (l : List Entry) :
    (l.find? (hit name rec)).bind toDecl = (decls l).find? (isIt name rec) := by
  induction l with
  | nil => rfl
  | cons e l ih =>
    rw [List.find?_cons]
    cases hd : toDecl e with
    | none =>
      have : hit name rec e = false := by simp [hit, hd]
      rw [this]
      simp only [decls, List.filterMap_cons, hd]
      exact ih
    | some d =>
      have : hit name rec e = isIt name rec d := by simp [hit, hd]
      rw [this]
      simp only [decls, List.filterMap_cons, hd, List.find?_cons]
      cases isIt name rec d
      · exact ih
      · exact hd

theorem find_named (name : List Byte) (rec : Bool) (l : List Entry) {e : Entry}
    (h : l.find? (hit name rec) = some e) : ∃ d, toDecl e = some d := by
  have := List.find?_some h
  unfold hit at this
  cases hd : toDecl e with
  | none => rw [hd] at this; cases this
  | some d => exact ⟨d, rfl⟩

theorem decls_reverse (l : List Entry) : decls l.reverse = (decls l).reverse := by
  simp [decls, List.filterMap_reverse]

theorem symbolToken_find (tab : List Entry) (name : List Byte) (off : Nat) (rec : Bool) :
    (symbolToken tab name off rec).bind toDecl
      = (decls (tab.drop off)).reverse.find? (isIt name rec) := by
  rw [symbolToken, symbolLoop_scan _ _ _ _ _ _ (Nat.lt_succ_self _), scan_find _ _ _ _ (Nat.le_refl _),
    List.take_length, find_decls, decls_reverse]

theorem symbolToken_named {tab : List Entry} {name : List Byte} {off : Nat} {rec : Bool} {e : Entry}
    (h : symbolToken tab name off rec = some e) : ∃ d, toDecl e = some d := by
  rw [symbolToken, symbolLoop_scan _ _ _ _ _ _ (Nat.lt_succ_self _),
    scan_find _ _ _ _ (Nat.le_refl _)] at h
  exact find_named _ _ _ h

theorem addSymbol_some {tab t : List Entry} {d : Decl} (h : addSymbol tab d = some t) :
    t = tab ++ [ofDecl d] := by
  unfold addSymbol at h
  split at h <;> simp at h
  exact h.symm

theorem addAll_some {ds : List Decl} {tab t : List Entry} (h : addAll tab ds = some t) :
    t = tab ++ ds.map ofDecl := by
  induction ds generalizing tab with
  | nil => simp [addAll] at h; simp [h]
  | cons d ds ih =>
    simp only [addAll, Option.bind_eq_bind, Option.bind_eq_some_iff] at h
    obtain ⟨u, h1, h2⟩ := h
    rw [ih h2, addSymbol_some h1]; simp

/-- A table, the start of its present block and the procedures being compiled stand for scopes. -/
inductive Rep : List Entry → Nat → List Open → Env → Prop where
  | base (pre loc : List Entry) :
      Rep (pre ++ loc) pre.length [] [(decls loc).reverse, (decls pre).reverse]
  | nest {t0 : List Entry} {outer : Nat} {os : List Open} {sc : List Decl} {scs : Env}
      (ps : List Decl) (loc : List Entry) (h : Rep t0 outer os (sc :: scs)) (proc : Nat)
      (hp : t0.length = proc + 1) :
      Rep (t0 ++ ps.map ofDecl ++ loc) (t0.length + ps.length)
        (⟨proc, ps.length, t0.length + ps.length, outer⟩ :: os)
        ((decls loc).reverse :: ps.reverse :: sc :: scs)

theorem Rep.append {t : List Entry} {l : Nat} {os : List Open} {sc : List Decl} {scs : Env}
    (h : Rep t l os (sc :: scs)) (x : List Entry) :
    Rep (t ++ x) l os (((decls x).reverse ++ sc) :: scs) := by
  cases h with
  | base pre loc =>
    have := Rep.base pre (loc ++ x)
    rw [decls_append, List.reverse_append, ← List.append_assoc] at this
    exact this
  | nest ps loc h proc hp =>
    have := Rep.nest ps (loc ++ x) h proc hp
    rw [decls_append, List.reverse_append, ← List.append_assoc] at this
    exact this

theorem Rep.flat {t : List Entry} {l : Nat} {os : List Open} {env : Env} (h : Rep t l os env) :
    env.flatten = (decls t).reverse := by
  induction h with
  | base pre loc => simp [decls_append]
  | nest ps loc h proc hp ih =>
    simp only [List.flatten_cons] at ih ⊢
    simp [decls_append, decls_map, ih]

theorem Rep.top {t : List Entry} {l : Nat} {os : List Open} {sc : List Decl} {scs : Env}
    (h : Rep t l os (sc :: scs)) : sc = (decls (t.drop l)).reverse := by
  cases h with
  | base pre loc => simp
  | nest ps loc h proc hp =>
    rw [List.drop_left' (by simp)]

theorem clear_nest (t0 : List Entry) (ps : List Decl) :
    ∃ x, decls x = [] ∧ clearNames (t0 ++ ps.map ofDecl) t0.length ps.length = t0 ++ x := by
  refine ⟨ps.map fun d => ⟨none, d.kind, d.value⟩, ?_, ?_⟩
  · induction ps with
    | nil => rfl
    | cons d ps ih => simp [decls, toDecl]
  · unfold clearNames
    apply List.ext_getElem
    · simp
    · intro i h1 h2
      simp only [List.length_mapIdx, List.length_append, List.length_map] at h1
      rw [List.getElem_mapIdx]
      by_cases hi : i < t0.length
      · rw [if_neg (by omega), List.getElem_append_left hi, List.getElem_append_left hi]
      · rw [if_pos (by omega), List.getElem_append_right (by omega),
          List.getElem_append_right (by omega)]
        simp [ofDecl]

theorem Rep.ne {t : List Entry} {l : Nat} {os : List Open} {env : Env} (h : Rep t l os env) :
    ∃ sc scs, env = sc :: scs := by cases h <;> exact ⟨_, _, rfl⟩

theorem step_rep {s s' : Scopes} {env : Env} (h : Rep s.tab s.level s.opened env) {e : Event}
    (hs : step s e = some s') :
    ∃ env', event env e = some env' ∧ Rep s'.tab s'.level s'.opened env' := by
  obtain ⟨tab, level, opened⟩ := s
  change Rep tab level opened env at h
  obtain ⟨sc, scs, rfl⟩ := h.ne
  cases e with
  | declare d =>
    simp only [step, Option.bind_eq_bind, Option.bind_eq_some_iff] at hs
    obtain ⟨t, ht, hs⟩ := hs
    cases hs
    refine ⟨_, rfl, ?_⟩
    have := h.append [ofDecl d]
    rw [show decls [ofDecl d] = [d] from rfl] at this
    rw [addSymbol_some ht]
    exact this
  | enter p ps =>
    simp only [step, Option.bind_eq_bind, Option.bind_eq_some_iff] at hs
    obtain ⟨t, ht, t', ht', hs⟩ := hs
    cases hs
    refine ⟨_, rfl, ?_⟩
    have h1 := h.append [ofDecl p]
    rw [show decls [ofDecl p] = [p] from rfl] at h1
    have h2 := Rep.nest ps [] h1 tab.length (by simp)
    have e1 : t' = tab ++ [ofDecl p] ++ ps.map ofDecl ++ [] := by
      rw [addAll_some ht', addSymbol_some ht]; simp
    have e2 : t'.length = (tab ++ [ofDecl p]).length + ps.length := by rw [e1]; simp; omega
    rw [← e1, ← e2] at h2
    exact h2
  | leave =>
    simp only [step] at hs
    cases h with
    | base => simp at hs
    | nest ps loc h proc hp =>
      simp only [Option.some.injEq] at hs
      subst hs
      refine ⟨_, rfl, ?_⟩
      simp only
      rw [List.take_left' (by simp), ← hp]
      obtain ⟨x, hx, hc⟩ := clear_nest _ ps
      rw [hc]
      have := h.append x
      rw [hx] at this
      exact this

theorem steps_rep {es : List Event} {s s' : Scopes} {env : Env}
    (h : Rep s.tab s.level s.opened env) (hs : steps s es = some s') :
    ∃ env', history env es = some env' ∧ Rep s'.tab s'.level s'.opened env' := by
  induction es generalizing s env with
  | nil => simp [steps] at hs; subst hs; exact ⟨env, rfl, h⟩
  | cons e es ih =>
    simp only [steps, Option.bind_eq_bind, Option.bind_eq_some_iff] at hs
    obtain ⟨s1, h1, h2⟩ := hs
    obtain ⟨env1, he, hr⟩ := step_rep h h1
    obtain ⟨env2, he2, hr2⟩ := ih hr h2
    exact ⟨env2, by simp [history, he, he2], hr2⟩

theorem start_rep (pre : List Decl) :
    Rep (start pre).tab (start pre).level (start pre).opened (programEnv pre) := by
  have := Rep.base (pre.map ofDecl) []
  rw [decls_map, List.append_nil, List.length_map] at this
  exact this

theorem history_append (env : Env) (a b : List Event) :
    history env (a ++ b) = (history env a).bind fun e => history e b := by
  induction a generalizing env with
  | nil => rfl
  | cons x a ih =>
    simp only [List.cons_append, history, Option.bind_eq_bind]
    cases event env x with
    | none => rfl
    | some e => exact ih e

theorem complete_history {es : List Event} (h : Complete es) (sc : List Decl) (scs : Env) :
    ∃ sc', history (sc :: scs) es = some (sc' :: scs) := by
  induction h generalizing sc scs with
  | nil => exact ⟨sc, rfl⟩
  | declare d _ ih => exact ih (d :: sc) scs
  | proc p ps _ _ ihb ihe =>
    obtain ⟨x, hx⟩ := ihb [] (ps.reverse :: (p :: sc) :: scs)
    obtain ⟨y, hy⟩ := ihe (p :: sc) scs
    refine ⟨y, ?_⟩
    rw [history]
    show history ([] :: ps.reverse :: (p :: sc) :: scs) _ = _
    rw [history_append, hx]
    exact hy

end Pas.Names
