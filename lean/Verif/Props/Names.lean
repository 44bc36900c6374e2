import Verif.Lemmas.Token

/-! C45, C46: reserved words and the meaning of names. -/

namespace Pas

open Names Spec

/-- C45: a name is a reserved word exactly when it is an entry of the table in any mixture of upper
and lower case, and then it is classified as that entry. -/
theorem C45_recognised (name : List Byte) (w : RWord) :
    findReserved name = some w ↔ w ∈ reserved ∧ SameName w.name name :=
  findReserved_go name reserved reserved_sorted w

/-- C45: no two entries of the table are the same name. -/
theorem C45_unique (v w : RWord) (hv : v ∈ reserved) (hw : w ∈ reserved)
    (h : SameName v.name w.name) : v = w := by
  have h1 := (C45_recognised w.name v).2 ⟨hv, h⟩
  have h2 := (C45_recognised w.name w).2 ⟨hw, rfl⟩
  rw [h1] at h2
  exact Option.some.inj h2

/-- The word symbols of ISO Pascal except `nil`, in lower case, with the codes of
`pascal/pas_tkndefs.h:129-171`. -/
def isoWords : List (List Byte × Nat) := [
  ([97, 110, 100], 0x80), ([97, 114, 114, 97, 121], 0x81), ([98, 101, 103, 105, 110], 0x82),
  ([99, 97, 115, 101], 0x83), ([99, 111, 110, 115, 116], 0x84), ([100, 105, 118], 0x85),
  ([100, 111], 0x86), ([100, 111, 119, 110, 116, 111], 0x87), ([101, 108, 115, 101], 0x88),
  ([101, 110, 100], 0x89), ([102, 105, 108, 101], 0x8a), ([102, 111, 114], 0x8c),
  ([102, 117, 110, 99, 116, 105, 111, 110], 0x8d), ([103, 111, 116, 111], 0x8e),
  ([105, 102], 0x8f), ([105, 110], 0x91), ([108, 97, 98, 101, 108], 0x94), ([109, 111, 100], 0x95),
  ([110, 111, 116], 0x97), ([111, 102], 0x98), ([111, 114], 0x99),
  ([112, 97, 99, 107, 101, 100], 0x9b), ([112, 114, 111, 99, 101, 100, 117, 114, 101], 0x9c),
  ([112, 114, 111, 103, 114, 97, 109], 0x9d), ([114, 101, 99, 111, 114, 100], 0x9e),
  ([114, 101, 112, 101, 97, 116], 0x9f), ([115, 101, 116], 0xa0), ([116, 104, 101, 110], 0xa3),
  ([116, 111], 0xa4), ([116, 121, 112, 101], 0xa5), ([117, 110, 116, 105, 108], 0xa7),
  ([118, 97, 114], 0xa9), ([119, 104, 105, 108, 101], 0xb0), ([119, 105, 116, 104], 0xb1)]

/-- C45: the word symbols of ISO Pascal are recognised. -/
theorem C45_words : ∀ p ∈ isoWords,
    ∃ w, findReserved p.1 = some w ∧ w.type = p.2 ∧ w.sub = 0 := by
  have h : ∀ p ∈ isoWords, ((findReserved p.1).any fun w => w.type == p.2 && w.sub == 0) = true := by
    decide +kernel
  intro p hp
  have := h p hp
  cases hf : findReserved p.1 with
  | none => simp [hf] at this
  | some w => rw [hf] at this; simp at this; exact ⟨w, rfl, this⟩

/-- C45: the names that stand for other names, and all that do not. -/
theorem C45_alias (name : List Byte) :
    (∀ p ∈ aliases, SameName p.1 name → mapToAlias name = p.2) ∧
    ((∀ p ∈ aliases, ¬ SameName p.1 name) → mapToAlias name = name) :=
  mapToAlias_go name aliases aliases_sorted

/-- Non-vacuity: `BeGiN` is reserved, `begins` is not; `Longint` stands for `LONGINTEGER`. -/
example : findReserved [66, 101, 71, 105, 78] = some ⟨[66, 69, 71, 73, 78], 0x82, 0⟩ ∧
    findReserved [98, 101, 103, 105, 110, 115] = none ∧
    mapToAlias [76, 111, 110, 103, 105, 110, 116]
      = [76, 79, 78, 71, 73, 78, 84, 69, 71, 69, 82] := by decide +kernel

/-- C46: after any history of declarations, procedure headings and block ends that the compiler
accepts, a search of the symbol table for a name finds exactly the innermost, most recent visible
declaration of that name; `rec` chooses between record fields and all other names. -/
theorem C46_lookup (predefined : List Decl) (evs : List Event) (s : Scopes)
    (h : steps (start predefined) evs = some s) :
    ∃ env, history (programEnv predefined) evs = some env ∧
      ∀ name rec, (symbolToken s.tab name 0 rec).bind toDecl = meaning env name rec := by
  obtain ⟨env, he, hr⟩ := steps_rep (start_rep predefined) h
  refine ⟨env, he, fun name rec => ?_⟩
  rw [symbolToken_find, List.drop_zero, ← hr.flat]
  rfl

/-- C46: a search limited to the present block (used where a name is being declared) finds exactly
the declarations of the innermost scope. -/
theorem C46_level (predefined : List Decl) (evs : List Event) (s : Scopes)
    (h : steps (start predefined) evs = some s) :
    ∃ sc scs, history (programEnv predefined) evs = some (sc :: scs) ∧
      ∀ name rec, (symbolToken s.tab name s.level rec).bind toDecl = meaning [sc] name rec := by
  obtain ⟨env, he, hr⟩ := steps_rep (start_rep predefined) h
  obtain ⟨sc, scs, rfl⟩ := hr.ne
  refine ⟨sc, scs, he, fun name rec => ?_⟩
  rw [symbolToken_find, ← hr.top]
  simp only [meaning, List.flatten_cons, List.flatten_nil, List.append_nil]
  rfl

/-- C46: leaving a procedure gives every name exactly the meaning it had before the procedure,
except that the procedure itself is now declared, whatever was declared inside, to any depth. -/
theorem C46_restore (predefined : List Decl) (evs : List Event) (p : Decl) (ps : List Decl)
    (body : List Event) (hbody : Complete body) (s1 s2 : Scopes)
    (h1 : steps (start predefined) (evs ++ [.declare p]) = some s1)
    (h2 : steps (start predefined) (evs ++ .enter p ps :: (body ++ [.leave])) = some s2)
    (name : List Byte) (rec : Bool) :
    (symbolToken s2.tab name 0 rec).bind toDecl = (symbolToken s1.tab name 0 rec).bind toDecl ∧
    (symbolToken s2.tab name s2.level rec).bind toDecl
      = (symbolToken s1.tab name s1.level rec).bind toDecl := by
  obtain ⟨env1, e1, r1⟩ := steps_rep (start_rep predefined) h1
  obtain ⟨env2, e2, r2⟩ := steps_rep (start_rep predefined) h2
  have : env1 = env2 := by
    rw [history_append] at e1 e2
    cases hh : history (programEnv predefined) evs with
    | none => rw [hh] at e1; cases e1
    | some env =>
      rw [hh] at e1 e2
      cases env with
      | nil => cases e1
      | cons sc scs =>
        obtain ⟨sc', hb⟩ := complete_history hbody [] (ps.reverse :: (p :: sc) :: scs)
        have e2' : history ([] :: ps.reverse :: (p :: sc) :: scs) (body ++ [.leave]) = some env2 := e2
        rw [history_append, hb] at e2'
        have e2'' : some ((p :: sc) :: scs) = some env2 := e2'
        have e1' : some ((p :: sc) :: scs) = some env1 := e1
        rw [e1'] at e2''
        exact Option.some.inj e2''
  subst this
  obtain ⟨sc, scs, rfl⟩ := r1.ne
  exact ⟨by rw [symbolToken_find, symbolToken_find, List.drop_zero, List.drop_zero, ← r1.flat, ← r2.flat],
    by rw [symbolToken_find, symbolToken_find, ← r1.top, ← r2.top]⟩

/-- Non-vacuity: `x` is declared, a procedure with a parameter `X` and a local `x` is entered, a
nested procedure is compiled, and the procedure is left; `x` is then the outer one again. -/
example : ∃ s s', steps (start [⟨[84], 4, 0⟩])
      [.declare ⟨[120], 0x40, 1⟩, .enter ⟨[112], 0x60, 0⟩ [⟨[88], 0x41, 2⟩], .declare ⟨[120], 0x42, 3⟩,
       .enter ⟨[113], 0x60, 0⟩ [], .leave] = some s ∧
    (symbolToken s.tab [88] 0 false).bind toDecl = some ⟨[120], 0x42, 3⟩ ∧
    steps s [.leave] = some s' ∧
    (symbolToken s'.tab [88] 0 false).bind toDecl = some ⟨[120], 0x40, 1⟩ ∧
    (symbolToken s'.tab [81] 0 false) = none := by
  refine ⟨_, _, rfl, ?_, rfl, ?_, ?_⟩ <;> decide +kernel

end Pas
