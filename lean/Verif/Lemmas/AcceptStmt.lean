import Verif.Lemmas.AcceptExpr

/-! Lemmas for C82: what is accepted as a statement is one. -/
namespace Pas.Accept
open Pas.Comp
open Pas.Src (Lvl)

theorem expr_took {g : Cfg} {n : Nat} {k : Kind} {s s' : CS} {t : ET} (h : expression g n k.et s = some (t, s')) :
    Took s s' (fun ts => Form checked .expr ts k) := by
  refine ((known g n).expr _ _ _ _ h).imp fun ts hts => ?_
  obtain ⟨⟨q, hq, hf⟩, hx⟩ := hts
  rcases hx with hx | hx | hx
  · cases k <;> cases hx
  · cases k <;> cases hx
  · rw [show q = k from et_inj (hq.trans hx.symm)] at hf
    exact hf

theorem bool_took {g : Cfg} {n : Nat} {s s' : CS} {t : ET} (h : expression g n .boolean s = some (t, s')) :
    Took s s' (fun ts => Form checked .expr ts .bool) := expr_took (k := .bool) h

theorem any_took {g : Cfg} {n : Nat} {find : ET} {s s' : CS} {t : ET} (h : expression g n find s = some (t, s')) :
    Took s s' (Is .expr t) := ((known g n).expr _ _ _ _ h).imp fun _ h => h.1

theorem tok_quiet {s s' : CS} (h : Quiet s s') : s'.tok = s.tok := by
  unfold CS.tok
  rw [h.toks]

theorem assignment_took {g : Cfg} {n : Nat} {o : Op} {k : Kind} {v : Var} {s s' : CS}
    (h : assignment g n o k.et v s = some s') :
    Took s s' (fun ts => ∃ es, ts = .assign :: es ∧ Form checked .expr es k) := by
  obtain ⟨⟨t1, s1⟩, h1, h2⟩ := Option.bind_eq_some_iff.mp h
  cases h2
  refine ((took_expect s (by simp)).seq ((expr_took h1).quiet (quiet_ref g o v s1))).imp fun ts hts => ?_
  obtain ⟨u, es, rfl, rfl, hf⟩ := hts
  exact ⟨es, rfl, hf⟩

theorem largeAssignment_took {g : Cfg} {n : Nat} {o : Op} {k : Kind} {v : Var} {s s' : CS}
    (h : largeAssignment g n o k.et v s = some s') :
    Took s s' (fun ts => ∃ es, ts = .assign :: es ∧ Form checked .expr es k) := by
  obtain ⟨⟨t1, s1⟩, h1, h2⟩ := Option.bind_eq_some_iff.mp h
  cases h2
  refine ((took_expect s (by simp)).seq ((expr_took h1).quiet ((quiet_data _ _ s1).trans (quiet_ref g o v _)))).imp
    fun ts hts => ?_
  obtain ⟨u, es, rfl, rfl, hf⟩ := hts
  exact ⟨es, rfl, hf⟩

theorem elementAssignment_took {g : Cfg} {n : Nat} {a : ArrSym} {s s' : CS} {b : Bool}
    (h : elementAssignment g n a s = some s') : Took s s' (fun ts => Stm checked b (.arr a :: ts)) := by
  unfold elementAssignment at h
  split at h
  · rename_i hb
    obtain ⟨s1, h1, h2⟩ := Option.bind_eq_some_iff.mp h
    have key : Took s1 s' (fun ts => ∃ es, ts = .assign :: es ∧ Form checked .expr es a.kind) := by
      cases hk : a.kind <;> rw [hk] at h2 <;>
        first | exact assignment_took h2 | exact largeAssignment_took h2
    refine ((took_next hb (by simp)).seq (((known g n).index _ _ _ _ h1).seq key)).imp fun ts hts => ?_
    obtain ⟨u, v, rfl, rfl, w, x, rfl, ⟨m, is, rfl, hm, hi⟩, es, rfl, hf⟩ := hts
    have := Stm.element (b := b) hi hm hf
    simpa using this
  · cases h

theorem shortExpr_took {g : Cfg} {n : Nat} {s s' : CS} (h : shortExpr g n s = some s') :
    Took s s' (fun ts => Form checked .expr ts .shortInt) := by
  obtain ⟨⟨t1, s1⟩, h1, h2⟩ := Option.bind_eq_some_iff.mp h
  cases h2
  have hq : Quiet s1 (if t1 = .shortInteger then s1 else s1.err) := by
    split
    · exact .refl s1
    · exact quiet_err s1
  exact (expr_took (k := .shortInt) h1).quiet hq

theorem fieldWidth_took {g : Cfg} {n : Nat} {s s' : CS} (h : fieldWidth g n s = some s') :
    Took s s' (Width checked) := by
  unfold fieldWidth at h
  split at h
  · rename_i hc
    obtain ⟨s1, h1, h2⟩ := Option.bind_eq_some_iff.mp h
    have hq : Quiet s1 (genSimple .sll (genData .push 8 s1)) := (quiet_data _ _ s1).trans (quiet_simple _ _)
    have h3 := (took_next hc (by simp)).seq ((shortExpr_took h1).quiet hq)
    generalize genSimple .sll (genData .push 8 s1) = s2 at h2 h3
    unfold precision at h2
    split at h2
    · rename_i hc2
      obtain ⟨s3, h4, h5⟩ := Option.bind_eq_some_iff.mp h2
      cases h5
      refine (h3.seq ((took_next hc2 (by simp)).seq ((shortExpr_took h4).quiet (quiet_simple _ s3)))).imp
        fun ts hts => ?_
      obtain ⟨_, _, rfl, ⟨_, u, rfl, rfl, hu⟩, _, v, rfl, rfl, hv⟩ := hts
      simpa using Width.two hu hv
    · cases h2
      refine h3.imp fun ts hts => ?_
      obtain ⟨_, u, rfl, rfl, hu⟩ := hts
      exact Width.one hu
  · cases h
    exact (quiet_data _ _ s).took.imp fun ts hts => by subst hts; exact .none

theorem writeText_took {g : Cfg} {n : Nat} {s s' : CS} (h : writeText g n s = some s') :
    Took s s' (Item checked) := by
  by_cases hstr : ∃ t, s.tok = .str t
  · obtain ⟨t, ht⟩ := hstr
    unfold writeText at h
    rw [ht] at h
    dsimp only at h
    obtain ⟨s1, h1, h2⟩ := Option.bind_eq_some_iff.mp h
    cases h2
    have hq : Quiet s (genData .push t.length (genData .lac ((s.ro.length % 65536 : Nat) : Int)
      (genData .push t.length (genSimple .dup { s with ro := s.ro ++ roString g.pad t })))) := by
      refine Quiet.trans (b := { s with ro := s.ro ++ roString g.pad t }) ⟨Nat.le_refl _, rfl, rfl, rfl⟩ ?_
      exact (((quiet_simple _ _).trans (quiet_data _ _ _)).trans (quiet_data _ _ _)).trans (quiet_data _ _ _)
    generalize genData .push t.length (genData .lac ((s.ro.length % 65536 : Nat) : Int)
      (genData .push t.length (genSimple .dup { s with ro := s.ro ++ roString g.pad t }))) = s2 at h1 hq
    have ht2 : s2.tok = .str t := by rw [tok_quiet hq, ht]
    have hs1 : s1 = genData .push 0 s2 := by
      unfold fieldWidth at h1
      rw [if_neg (by rw [ht2]; simp)] at h1
      cases h1
      rfl
    subst hs1
    have hq2 := (hq.trans (quiet_data .push 0 s2)).trans (quiet_data .sysio 0x20 _)
    refine (hq2.then (took_next (t := .str t) (by rw [tok_quiet hq2, ht]) (by simp))).imp fun ts hts => ?_
    subst hts
    exact .str
  · have h' : (do
      let (t, s) ← expression g n .unknown (genSimple .dup s)
      let s ← fieldWidth g n s
      pure (match writeValOp t with
        | some k => genData .sysio k s
        | none => s.err)) = some s' := by
      rw [← h]
      unfold writeText
      cases ht : s.tok <;> first | rfl | exact absurd ⟨_, ht⟩ hstr
    obtain ⟨⟨t1, s1⟩, h1, h2⟩ := Option.bind_eq_some_iff.mp h'
    obtain ⟨s2, h3, h4⟩ := Option.bind_eq_some_iff.mp h2
    simp only [pure, Option.some.injEq] at h4
    have hq : Quiet s2 s' ∧ (s'.errs = s2.errs → ∀ k : Kind, k.et = t1 → Numeric k ∨ k = .char) := by
      rw [← h4]
      split
      · rename_i o ho
        refine ⟨quiet_data _ _ s2, fun _ k hk => ?_⟩
        subst hk
        cases k <;> first
          | exact Or.inl (Or.inl trivial)
          | exact Or.inl (Or.inr trivial)
          | exact Or.inr rfl
          | cases ho
      · exact ⟨quiet_err s2, fun he => by simp [CS.err] at he⟩
    refine ((quiet_simple .dup s).then ((any_took h1).seq (fieldWidth_took h3)) |>.check hq.1 hq.2).imp fun ts hts => ?_
    obtain ⟨⟨u, v, rfl, ⟨k, hk, hf⟩, hw⟩, hc⟩ := hts
    exact .value hf (hc k hk) hw

theorem writeItems_took {g : Cfg} : ∀ {n : Nat} {s s' : CS}, writeItems g n s = some s' → Took s s' (Items checked)
  | 0, _, _, h => none_some h
  | n + 1, s, s', h => by
    simp only [writeItems] at h
    obtain ⟨s1, h1, h2⟩ := Option.bind_eq_some_iff.mp h
    split at h2
    · rename_i hc
      refine ((writeText_took h1).seq ((took_next hc (by simp)).seq (writeItems_took h2))).imp fun ts hts => ?_
      obtain ⟨u, v, rfl, hu, _, x, rfl, rfl, hx⟩ := hts
      exact .more hu hx
    · cases h2
      exact (writeText_took h1).imp fun ts h => .one h

theorem fileNumber_took (g : Cfg) (d : Nat) (s : CS) :
    Took s (fileNumber g d s) (fun ts => ts = [] ∨ ∃ off, ts = [.file off]) := by
  by_cases hf : ∃ off, s.tok = .file off
  · obtain ⟨off, ho⟩ := hf
    unfold fileNumber
    rw [ho]
    have hq := quiet_ref g .lds ⟨.int, 0, off⟩ s
    exact (hq.then (took_next (t := .file off) (by rw [tok_quiet hq, ho]) (by simp))).imp
      fun ts hts => Or.inr ⟨off, hts⟩
  · have : fileNumber g d s = stackRef g .lds ⟨.int, 0, d⟩ s := by
      unfold fileNumber
      cases ht : s.tok <;> first | rfl | exact absurd ⟨_, ht⟩ hf
    rw [this]
    exact (quiet_ref g _ _ s).took.imp fun ts hts => Or.inl hts

/-- The file and the comma in front of the items. -/
theorem before_took (g : Cfg) (d : Nat) (s : CS) :
    Took s (if (fileNumber g d s).tok = .comma then (fileNumber g d s).next else fileNumber g d s)
      checked.before := by
  have h := fileNumber_took g d s
  split
  · rename_i hc
    refine (h.seq (took_next hc (by simp))).imp fun ts hts => ?_
    obtain ⟨u, v, rfl, hu, rfl⟩ := hts
    rcases hu with rfl | ⟨off, rfl⟩
    · exact Or.inr (Or.inl rfl)
    · exact Or.inr (Or.inr ⟨off, Or.inr rfl⟩)
  · refine h.imp fun ts hts => ?_
    rcases hts with rfl | ⟨off, rfl⟩
    · exact Or.inl rfl
    · exact Or.inr (Or.inr ⟨off, Or.inl rfl⟩)

theorem writeParms_took {g : Cfg} {n : Nat} {s s' : CS} (h : writeParms g n s = some s') :
    Took s s' (fun ts => ∃ bs is, ts = bs ++ is ∧ checked.before bs ∧ Items checked is) := by
  unfold writeParms at h
  exact (before_took g 2 s).seq (writeItems_took h)

theorem readText_took {g : Cfg} {s s' : CS} (h : readText g s = some s') :
    Took s s' (fun ts => ∃ v : Var, ts = [.var v] ∧ (v.kind = .int ∨ v.kind = .char)) := by
  obtain ⟨⟨t1, s1⟩, h1, h2⟩ := Option.bind_eq_some_iff.mp h
  simp only [pure, Option.some.injEq] at h2
  unfold varParameter at h1
  split at h1
  · rename_i v hv
    cases h1
    have hq := (quiet_simple .dup s).trans (quiet_ref g .las v _)
    have hn := hq.then (took_next (t := .var v) (by rw [tok_quiet hq]; exact hv) (by simp))
    have hc : Quiet (stackRef g .las v (genSimple .dup s)).next s' ∧
        (s'.errs = (stackRef g .las v (genSimple .dup s)).next.errs → v.kind = .int ∨ v.kind = .char) := by
      rw [← h2]
      cases hk : v.kind <;> first
        | exact ⟨quiet_data _ _ _, fun _ => Or.inl rfl⟩
        | exact ⟨quiet_data _ _ _, fun _ => Or.inr rfl⟩
        | exact ⟨quiet_err _, fun he => by simp [CS.err, Kind.et] at he⟩
    refine (hn.check hc.1 hc.2).imp fun ts hts => ⟨v, hts⟩
  · cases h1

theorem readItems_took {g : Cfg} : ∀ {n : Nat} {s s' : CS}, readItems g n s = some s' → Took s s' (Targets checked)
  | 0, _, _, h => none_some h
  | n + 1, s, s', h => by
    simp only [readItems] at h
    obtain ⟨s1, h1, h2⟩ := Option.bind_eq_some_iff.mp h
    split at h2
    · rename_i hc
      have hp : s1.tok ≠ .period := by rcases hc with e | e <;> rw [e] <;> simp
      refine ((readText_took h1).seq ((took_next rfl hp).seq (readItems_took h2))).imp fun ts hts => ?_
      obtain ⟨_, _, rfl, ⟨v, rfl, hv⟩, _, x, rfl, rfl, hx⟩ := hts
      exact .more hv hc.symm hx
    · cases h2
      refine (readText_took h1).imp fun ts hts => ?_
      obtain ⟨v, rfl, hv⟩ := hts
      exact .one hv

theorem readParms_took {g : Cfg} {n : Nat} {s s' : CS} (h : readParms g n s = some s') :
    Took s s' (fun ts => ∃ bs is, ts = bs ++ is ∧ checked.before bs ∧ Targets checked is) := by
  unfold readParms at h
  exact (before_took g 0 s).seq (readItems_took h)

/-- A check that there is something in the parentheses. -/
theorem rparen_quiet (s : CS) : Quiet s (if s.tok = .rparen then s.err else s) := by
  split
  · exact quiet_err s
  · exact .refl s

theorem writeProc_took {g : Cfg} {n : Nat} {s s' : CS} {b : Bool} (ht : s.tok = .write_)
    (h : writeProc g n s = some s') : Took s s' (Stm checked b) := by
  obtain ⟨s1, h1, h2⟩ := Option.bind_eq_some_iff.mp h
  cases h2
  refine ((took_next ht (by simp)).seq (((took_expect s.next (by simp)).quiet (rparen_quiet _)).seq
    (((writeParms_took h1).quiet (quiet_data _ _ s1)).seq (took_expect _ (by simp))))).imp fun ts hts => ?_
  obtain ⟨_, _, rfl, rfl, _, _, rfl, rfl, _, _, rfl, ⟨bs, is, rfl, hb, hi⟩, rfl⟩ := hts
  simpa using Stm.write (b := b) hb hi

theorem readProc_took {g : Cfg} {n : Nat} {s s' : CS} {b : Bool} (ht : s.tok = .read_)
    (h : readProc g n s = some s') : Took s s' (Stm checked b) := by
  obtain ⟨s1, h1, h2⟩ := Option.bind_eq_some_iff.mp h
  cases h2
  refine ((took_next ht (by simp)).seq (((took_expect s.next (by simp)).quiet (rparen_quiet _)).seq
    (((readParms_took h1).quiet (quiet_data _ _ s1)).seq (took_expect _ (by simp))))).imp fun ts hts => ?_
  obtain ⟨_, _, rfl, rfl, _, _, rfl, rfl, _, _, rfl, ⟨bs, is, rfl, hb, hi⟩, rfl⟩ := hts
  simpa using Stm.read (b := b) hb hi

theorem writelnProc_took {g : Cfg} {n : Nat} {s s' : CS} {b : Bool} (ht : s.tok = .writeln_)
    (h : writelnProc g n s = some s') : Took s s' (Stm checked b) := by
  unfold writelnProc at h
  dsimp only at h
  split at h
  · rename_i hl
    have h0 := (took_next ht (by simp)).seq (took_next hl (by simp))
    split at h
    · cases h
      refine (h0.seq (((quiet_ref g .lds ⟨.int, 0, 2⟩ s.next.next).then (took_expect _ (by simp))).quiet
        (quiet_data .sysio 0x18 _))).imp fun ts hts => ?_
      obtain ⟨_, _, rfl, ⟨_, _, rfl, rfl, rfl⟩, rfl⟩ := hts
      exact .lineParens
    · obtain ⟨s1, h1, h2⟩ := Option.bind_eq_some_iff.mp h
      cases h2
      refine (h0.seq ((writeParms_took h1).seq ((took_expect s1 (by simp)).quiet (quiet_data .sysio 0x18 _)))).imp
        fun ts hts => ?_
      obtain ⟨_, _, rfl, ⟨_, _, rfl, rfl, rfl⟩, _, _, rfl, ⟨bs, is, rfl, hb, hi⟩, rfl⟩ := hts
      simpa using Stm.writeln (b := b) hb hi
  · cases h
    refine ((took_next ht (by simp)).quiet ((quiet_ref g .lds ⟨.int, 0, 2⟩ s.next).trans (quiet_data .sysio 0x18 _))).imp
      fun ts hts => ?_
    subst hts
    exact .line

theorem readlnProc_took {g : Cfg} {n : Nat} {s s' : CS} {b : Bool} (ht : s.tok = .readln_)
    (h : readlnProc g n s = some s') : Took s s' (Stm checked b) := by
  unfold readlnProc at h
  dsimp only at h
  split at h
  · rename_i hl
    have h0 := (took_next ht (by simp)).seq (took_next hl (by simp))
    split at h
    · cases h
      refine (h0.seq (((quiet_ref g .lds ⟨.int, 0, 0⟩ s.next.next).then (took_expect _ (by simp))).quiet
        (quiet_data .sysio 0x11 _))).imp fun ts hts => ?_
      obtain ⟨_, _, rfl, ⟨_, _, rfl, rfl, rfl⟩, rfl⟩ := hts
      exact .skipParens
    · obtain ⟨s1, h1, h2⟩ := Option.bind_eq_some_iff.mp h
      cases h2
      refine (h0.seq ((readParms_took h1).seq ((took_expect s1 (by simp)).quiet (quiet_data .sysio 0x11 _)))).imp
        fun ts hts => ?_
      obtain ⟨_, _, rfl, ⟨_, _, rfl, rfl, rfl⟩, _, _, rfl, ⟨bs, is, rfl, hb, hi⟩, rfl⟩ := hts
      simpa using Stm.readln (b := b) hb hi
  · cases h
    refine ((took_next ht (by simp)).quiet ((quiet_ref g .lds ⟨.int, 0, 0⟩ s.next).trans (quiet_data .sysio 0x11 _))).imp
      fun ts hts => ?_
    subst hts
    exact .skip

theorem actualParms_took {g : Cfg} {n : Nat} : ∀ {ks : List Kind} {s s' : CS}, actualParms g n ks s = some s' →
    Took s s' (fun ts => (ks = [] ∧ ts = []) ∨ Actuals checked ks ts)
  | [], s, s', h => by
    cases h
    exact (Quiet.refl s).took.imp fun ts hts => Or.inl ⟨rfl, hts⟩
  | [k], s, s', h => by
    simp only [actualParms] at h
    obtain ⟨⟨t1, s1⟩, h1, h2⟩ := Option.bind_eq_some_iff.mp h
    cases h2
    exact (expr_took h1).imp fun ts hf => Or.inr (.one hf)
  | k :: k' :: ks, s, s', h => by
    rw [actualParms] at h
    obtain ⟨⟨t1, s1⟩, h1, h2⟩ := Option.bind_eq_some_iff.mp h
    dsimp only at h2
    rw [if_neg (by simp)] at h2
    refine ((expr_took h1).seq ((took_expect s1 (by simp)).seq (actualParms_took h2))).imp fun ts hts => ?_
    obtain ⟨u, _, rfl, hf, _, v, rfl, rfl, hv⟩ := hts
    rcases hv with ⟨hv, -⟩ | hv
    · cases hv
    · exact Or.inr (.more hf hv)

theorem procStatement_took {g : Cfg} {n : Nat} {q : ProcSym} {s s' : CS} {b : Bool} (ht : s.tok = .proc q)
    (h : procStatement g n q s = some s') : Took s s' (Stm checked b) := by
  obtain ⟨s1, h1, h2⟩ := Option.bind_eq_some_iff.mp h
  simp only [pure, Option.some.injEq] at h2
  have hq : Quiet s1 s' := by
    rw [← h2]
    split
    · exact (quiet_gen _ _ _ s1).trans (quiet_data _ _ _)
    · exact quiet_gen _ _ _ s1
  unfold actualParameterList at h1
  dsimp only at h1
  by_cases hp : s.next.tok = .lparen
  · rw [if_pos hp, if_neg (by simp [hp])] at h1
    obtain ⟨s2, h3, h4⟩ := Option.bind_eq_some_iff.mp h1
    rw [if_pos hp] at h4
    cases h4
    refine ((took_next ht (by simp)).seq ((took_next hp (by simp)).seq ((actualParms_took h3).seq
      ((took_expect s2 (by simp)).quiet hq)))).imp fun ts hts => ?_
    obtain ⟨_, _, rfl, rfl, _, _, rfl, rfl, u, _, rfl, hu, rfl⟩ := hts
    rcases hu with ⟨hu, rfl⟩ | hu
    · exact .callParens hu trivial
    · exact .callWith hu
  · rw [if_neg hp] at h1
    by_cases he : q.parms = []
    · rw [if_neg (by simp [he])] at h1
      obtain ⟨s2, h3, h4⟩ := Option.bind_eq_some_iff.mp h1
      rw [if_neg hp] at h4
      cases h4
      rw [he] at h3
      cases h3
      refine ((took_next ht (by simp)).quiet hq).imp fun ts hts => ?_
      subst hts
      exact .call he
    · rw [if_pos ⟨he, hp⟩] at h1
      obtain ⟨s2, h3, h4⟩ := Option.bind_eq_some_iff.mp h1
      rw [if_neg hp] at h4
      cases h4
      have h5 := ((took_next ht (by simp)).err (Q' := fun _ => False)).seq ((actualParms_took h3).quiet hq)
      exact h5.imp fun ts hts => by
        obtain ⟨_, _, _, hf, _⟩ := hts
        exact hf.elim

theorem quiet_label (s : CS) : Quiet s (newLabel s).2 := ⟨Nat.le_refl _, rfl, rfl, rfl⟩

theorem Took.restore {s s1 : CS} {x y : Word} {z w : Int} {Q : List Tk → Prop}
    (h : Took { s with cont := x, brk := y, adj := z } s1 Q) :
    Took s { s1 with cont := s.cont, brk := s.brk, adj := w } Q := ⟨h.le, rfl, rfl, h.read⟩

theorem jump_took {label : Word} {s : CS} {b : Bool} (hl : label ≠ 0 → b = true) :
    Quiet s (continueBreak label s) ∧ ((continueBreak label s).errs = s.errs → b = true) := by
  unfold continueBreak
  split
  · exact ⟨quiet_err s, fun he => by simp [CS.err] at he⟩
  · rename_i h
    refine ⟨?_, fun _ => hl h⟩
    dsimp only
    split
    · exact (quiet_data _ _ s).trans (quiet_data _ _ _)
    · exact quiet_data _ _ s

theorem caseConsts_took : ∀ {n : Nat} {st nx : Word} {s s' : CS} (k : Kind), caseConsts n st nx s = some s' →
    Took s s' (Consts checked k)
  | 0, _, _, _, _, _, h => none_some h
  | n + 1, st, nx, s, s', k, h => by
    rw [caseConsts] at h
    dsimp only at h
    have hq0 := quiet_simple .dup s
    generalize genSimple .dup s = s0 at h hq0
    cases hc : constValue s0.tok with
    | none =>
      rw [hc] at h
      dsimp only at h
      have : s' = s0.err := by
        cases ht : s0.tok <;> rw [ht] at h <;> first | (cases h; rfl) | cases h
      subst this
      exact (hq0.took).err
    | some v =>
      rw [hc] at h
      dsimp only at h
      have hp : s0.tok ≠ .period := by intro e; rw [e] at hc; cases hc
      have hpush : Quiet s0 (if v.toNat ≤ 0xffff then genData .push v.toNat s0 else genData .push 0xffff s0.err) ∧
          ((if v.toNat ≤ 0xffff then genData .push v.toNat s0 else genData .push 0xffff s0.err).errs = s0.errs →
            v.toNat < 65536) := by
        split
        · rename_i hv
          exact ⟨quiet_data _ _ s0, fun _ => by omega⟩
        · have := (quiet_data .push 0xffff s0.err).le
          refine ⟨(quiet_err s0).trans (quiet_data _ _ _), fun he => ?_⟩
          simp only [CS.err] at this he
          omega
      generalize (if v.toNat ≤ 0xffff then genData .push v.toNat s0 else genData .push 0xffff s0.err) = s1 at h hpush
      have hconst : v.toNat < 65536 → ∃ k', ConstOf s0.tok k' := by
        intro hv
        revert hc
        generalize s0.tok = t
        intro hc
        cases t <;> first
          | (cases hc; exact ⟨_, .int hv⟩)
          | (cases hc; exact ⟨_, .bool hv⟩)
          | (cases hc; exact ⟨_, .char hv⟩)
          | cases hc
      have h1 : Took s s1.next (fun ts => ts = [s0.tok] ∧ ∃ k', ConstOf s0.tok k') := by
        refine ((hq0.took.check hpush.1 hpush.2).seq (took_next (t := s0.tok) (tok_quiet hpush.1) hp)).imp
          fun ts hts => ?_
        obtain ⟨_, _, rfl, ⟨rfl, hv⟩, rfl⟩ := hts
        exact ⟨rfl, hconst hv⟩
      split at h
      · rename_i hcm
        have hq := quiet_data .jequ st.toNat s1.next
        refine ((h1.quiet hq).seq ((took_next (t := .comma) (by rw [tok_quiet hq]; exact hcm) (by simp)).seq
          (caseConsts_took k h))).imp fun ts hts => ?_
        obtain ⟨_, _, rfl, ⟨rfl, k', hk'⟩, _, u, rfl, rfl, hu⟩ := hts
        exact .more hk' trivial hu
      · cases h
        refine (h1.quiet (quiet_data .jneq nx.toNat _)).imp fun ts hts => ?_
        obtain ⟨rfl, k', hk'⟩ := hts
        exact .one hk' trivial

/-- The labels of a loop are only known inside one. -/
def Inside (s : CS) (b : Bool) : Prop := (s.brk ≠ 0 → b = true) ∧ (s.cont ≠ 0 → b = true)

theorem Inside.took {s s' : CS} {b : Bool} {Q : List Tk → Prop} (h : Inside s b) (ht : Took s s' Q) : Inside s' b := by
  unfold Inside
  rw [ht.brk, ht.cont]
  exact h

theorem Inside.quiet {s s' : CS} {b : Bool} (h : Inside s b) (ht : Quiet s s') : Inside s' b := by
  unfold Inside
  rw [ht.brk, ht.cont]
  exact h

theorem inside_true (s : CS) : Inside s true := ⟨fun _ => rfl, fun _ => rfl⟩

/-- What is known of the functions for statements. -/
structure KnownS (g : Cfg) (n : Nat) : Prop where
  stmt : ∀ s s' b, statement g n s = some s' → Inside s b → Took s s' (Stm checked b)
  stmts : ∀ s s' b, statements g n s = some s' → Inside s b → Took s.next s' (Stms checked b)
  block : ∀ s s' b, compound g n s = some s' → s.tok = .begin_ → Inside s b → Took s s' (Stm checked b)
  if_ : ∀ s s' b, ifStatement g n s = some s' → s.tok = .if_ → Inside s b → Took s s' (Stm checked b)
  repeat_ : ∀ s s' b, repeatStatement g n s = some s' → s.tok = .repeat_ → Took s s' (Stm checked b)
  while_ : ∀ s s' b, whileStatement g n s = some s' → s.tok = .while_ → Took s s' (Stm checked b)
  case_ : ∀ s s' b, caseStatement g n s = some s' → s.tok = .case_ → Inside s b → Took s s' (Stm checked b)
  cases : ∀ x y s s' b k, caseLoop g n x y s = some s' → Inside s b → Took s s' (Cases checked b k)
  for_ : ∀ s s' b, forStatement g n s = some s' → s.tok = .for_ → Took s s' (Stm checked b)

theorem knownS_stmts {g : Cfg} {n : Nat} (ih : KnownS g n) (s s' b) (h : statements g (n + 1) s = some s')
    (hi : Inside s b) : Took s.next s' (Stms checked b) := by
  simp only [Comp.statements] at h
  obtain ⟨s1, h1, h2⟩ := Option.bind_eq_some_iff.mp h
  have hs := ih.stmt _ _ b h1 hi
  split at h2
  · rename_i hc
    refine (hs.seq ((took_next hc (by simp)).seq (ih.stmts _ _ b h2 (Inside.took (s := s.next) hi hs)))).imp fun ts hts => ?_
    obtain ⟨u, _, rfl, hu, _, v, rfl, rfl, hv⟩ := hts
    exact .more hu hv
  · cases h2
    exact hs.imp fun ts h => .one h

theorem knownS_block {g : Cfg} {n : Nat} (ih : KnownS g n) (s s' b) (h : compound g (n + 1) s = some s')
    (ht : s.tok = .begin_) (hi : Inside s b) : Took s s' (Stm checked b) := by
  simp only [compound] at h
  obtain ⟨s1, h1, h2⟩ := Option.bind_eq_some_iff.mp h
  cases h2
  refine ((took_next ht (by simp)).seq ((ih.stmts _ _ b h1 hi).seq (took_expect s1 (by simp)))).imp fun ts hts => ?_
  obtain ⟨_, _, rfl, rfl, u, _, rfl, hu, rfl⟩ := hts
  exact .block hu

theorem knownS_if {g : Cfg} {n : Nat} (ih : KnownS g n) (s s' b) (h : ifStatement g (n + 1) s = some s')
    (ht : s.tok = .if_) (hi : Inside s b) : Took s s' (Stm checked b) := by
  simp only [ifStatement] at h
  have hl := quiet_label s
  have hx := hl.then (took_next (t := .if_) (by rw [tok_quiet hl]; exact ht) (by simp))
  generalize newLabel s = p at h hl hx
  obtain ⟨elseL, s0⟩ := p
  dsimp only at h hl hx
  obtain ⟨⟨t1, s1⟩, h1, h2⟩ := Option.bind_eq_some_iff.mp h
  dsimp only at h2
  have hc := hx.seq (bool_took h1)
  split at h2
  · rename_i hth
    obtain ⟨s2, h3, h4⟩ := Option.bind_eq_some_iff.mp h2
    have hq := quiet_data .jequz elseL.toNat s1.next
    have hd := hc.seq ((took_next hth (by simp)).quiet hq)
    have hs := ih.stmt _ _ b h3 (hi.took hd)
    have he := hd.seq hs
    split at h4
    · rename_i hel
      have hl2 := quiet_label s2
      have hx2 := hl2.then (took_next (t := .else_) (by rw [tok_quiet hl2]; exact hel) (by simp))
      generalize newLabel s2 = p at h4 hl2 hx2
      obtain ⟨endL, s3⟩ := p
      dsimp only at h4 hl2 hx2
      obtain ⟨s4, h5, h6⟩ := Option.bind_eq_some_iff.mp h4
      cases h6
      have hq2 := (quiet_data .jmp endL.toNat s3.next).trans (quiet_data .label elseL.toNat _)
      have hf := he.seq (hx2.quiet hq2)
      refine (hf.seq ((ih.stmt _ _ b h5 (hi.took hf)).quiet (quiet_data .label endL.toNat s4))).imp fun ts hts => ?_
      obtain ⟨_, w, rfl, ⟨_, _, rfl, ⟨_, v, rfl, ⟨_, _, rfl, ⟨_, u, rfl, rfl, hu⟩, rfl⟩, hv⟩, rfl⟩, hw⟩ := hts
      have := Stm.ifElse hu hv hw
      simpa using this
    · cases h4
      refine (he.quiet (quiet_data .label elseL.toNat s2)).imp fun ts hts => ?_
      obtain ⟨_, v, rfl, ⟨_, _, rfl, ⟨_, u, rfl, rfl, hu⟩, rfl⟩, hv⟩ := hts
      have := Stm.ifThen hu hv
      simpa using this
  · cases h2
    exact hc.err

theorem knownS_repeat {g : Cfg} {n : Nat} (ih : KnownS g n) (s s' b) (h : repeatStatement g (n + 1) s = some s')
    (ht : s.tok = .repeat_) : Took s s' (Stm checked b) := by
  simp only [repeatStatement] at h
  obtain ⟨s1, h1, h2⟩ := Option.bind_eq_some_iff.mp h
  obtain ⟨⟨t2, s2⟩, h3, h4⟩ := Option.bind_eq_some_iff.mp h2
  have hq0 : Quiet s (newLabel (newLabel s).2).2 := (quiet_label s).trans (quiet_label _)
  generalize hp1 : newLabel s = p1 at h1 h3 h4 hq0
  obtain ⟨l1, s01⟩ := p1
  dsimp only at h1 h3 h4 hq0
  generalize hp2 : newLabel s01 = p2 at h1 h3 h4 hq0
  obtain ⟨l2, s02⟩ := p2
  dsimp only at h1 h3 h4 hq0
  simp only [pure, Option.some.injEq] at h4
  subst h4
  rw [← hq0.brk, ← hq0.cont]
  refine hq0.then (Took.restore (x := l1) (y := l2) (z := 0) ?_)
  have htk : ({ s02 with cont := l1, brk := l2, adj := 0 } : CS).tok = .repeat_ := (tok_quiet hq0).trans ht
  generalize ({ s02 with cont := l1, brk := l2, adj := 0 } : CS) = s0 at h1 htk
  have hq := quiet_data .label l1.toNat s0
  have hb := ih.stmts _ _ true h1 (inside_true _)
  refine ((hq.then (took_next (t := .repeat_) ((tok_quiet hq).trans htk) (by simp))).seq (hb.seq
    ((took_expect s1 (by simp)).seq ((bool_took h3).quiet
      ((quiet_data .jequz l1.toNat s2).trans (quiet_data .label l2.toNat _)))))).imp fun ts hts => ?_
  obtain ⟨_, _, rfl, rfl, u, _, rfl, hu, _, v, rfl, rfl, hv⟩ := hts
  exact .repeat hu hv

theorem knownS_while {g : Cfg} {n : Nat} (ih : KnownS g n) (s s' b) (h : whileStatement g (n + 1) s = some s')
    (ht : s.tok = .while_) : Took s s' (Stm checked b) := by
  simp only [whileStatement] at h
  obtain ⟨⟨t1, s1⟩, h1, h2⟩ := Option.bind_eq_some_iff.mp h
  obtain ⟨s2, h3, h4⟩ := Option.bind_eq_some_iff.mp h2
  have hq0 : Quiet s (newLabel (newLabel s).2).2 := (quiet_label s).trans (quiet_label _)
  generalize hp1 : newLabel s = p1 at h1 h3 h4 hq0
  obtain ⟨l1, s01⟩ := p1
  dsimp only at h1 h3 h4 hq0
  generalize hp2 : newLabel s01 = p2 at h1 h3 h4 hq0
  obtain ⟨l2, s02⟩ := p2
  dsimp only at h1 h3 h4 hq0
  simp only [pure, Option.some.injEq] at h4
  subst h4
  rw [← hq0.brk, ← hq0.cont]
  refine hq0.then (Took.restore (x := l1) (y := l2) (z := 0) ?_)
  have htk : ({ s02 with cont := l1, brk := l2, adj := 0 } : CS).tok = .while_ := (tok_quiet hq0).trans ht
  have h1' : expression g n .boolean (genData .label l1.toNat
      ({ s02 with cont := l1, brk := l2, adj := 0 } : CS).next) = some (t1, s1) := h1
  generalize ({ s02 with cont := l1, brk := l2, adj := 0 } : CS) = s0 at h1' htk
  have hq := quiet_data .label l1.toNat s0.next
  have hb := ih.stmt _ _ true h3 (inside_true _)
  refine (((took_next htk (by simp)).quiet hq).seq ((bool_took h1').seq
    (((quiet_data .jequz l2.toNat s1).then (took_expect _ (by simp))).seq (hb.quiet
      ((quiet_data .jmp l1.toNat s2).trans (quiet_data .label l2.toNat _)))))).imp fun ts hts => ?_
  obtain ⟨_, _, rfl, rfl, u, _, rfl, hu, _, v, rfl, rfl, hv⟩ := hts
  exact .while hu hv

theorem knownS_case {g : Cfg} {n : Nat} (ih : KnownS g n) (s s' b) (h : caseStatement g (n + 1) s = some s')
    (ht : s.tok = .case_) (hi : Inside s b) : Took s s' (Stm checked b) := by
  simp only [caseStatement] at h
  obtain ⟨⟨t1, s1⟩, h1, h2⟩ := Option.bind_eq_some_iff.mp h
  obtain ⟨s2, h3, h4⟩ := Option.bind_eq_some_iff.mp h2
  have hq0 : Quiet s (newLabel (newLabel s).2).2 := (quiet_label s).trans (quiet_label _)
  generalize hp1 : newLabel s = p1 at h1 h3 h4 hq0
  obtain ⟨l1, s01⟩ := p1
  dsimp only at h1 h3 h4 hq0
  generalize hp2 : newLabel s01 = p2 at h1 h3 h4 hq0
  obtain ⟨l2, s02⟩ := p2
  dsimp only at h1 h3 h4 hq0
  simp only [pure, Option.some.injEq] at h4
  subst h4
  have ha := hq0.then (took_next (t := .case_) ((tok_quiet hq0).trans ht) (by simp))
  have hb := (ha.seq (any_took h1)).seq (took_expect s1 (t := .of_) (by simp))
  have hadj : ∀ (s : CS) (z : Int), Quiet s { s with adj := z } := fun s z => ⟨Nat.le_refl _, rfl, rfl, rfl⟩
  have hb := hb.quiet (hadj (s1.expect .of_) ((s1.expect .of_).adj - 2))
  have hend := ((quiet_data .label l2.toNat s2).trans (quiet_data .inds (-2) _)).trans (hadj _
    ((genData .inds (-2) (genData .label l2.toNat s2)).adj + 2))
  refine ⟨?_, ?_, ?_, fun he => ?_⟩
  · exact Nat.le_trans hb.le (Nat.le_trans (ih.cases _ _ _ _ b .int h3 (hi.took hb)).le hend.le)
  · rw [hend.brk, (ih.cases _ _ _ _ b .int h3 (hi.took hb)).brk, hb.brk]
  · rw [hend.cont, (ih.cases _ _ _ _ b .int h3 (hi.took hb)).cont, hb.cont]
  · have hc := ih.cases _ _ _ _ b .int h3 (hi.took hb)
    have h5 := hb.le
    have h6 := hc.le
    have h7 := hend.le
    obtain ⟨ts, h8, h9⟩ := hb.read (by omega)
    obtain ⟨_, _, rfl, ⟨_, u, rfl, rfl, k, hk, hu⟩, rfl⟩ := h9
    have hc := ih.cases _ _ _ _ b k h3 (hi.took hb)
    obtain ⟨v, h10, hv⟩ := hc.read (by omega)
    refine ⟨.case_ :: (u ++ .of_ :: v), ?_, .case hu hv⟩
    rw [h8, h10, hend.toks]
    simp

theorem knownS_cases {g : Cfg} {n : Nat} (ih : KnownS g n) (x y s s' b k) (h : caseLoop g (n + 1) x y s = some s')
    (hi : Inside s b) : Took s s' (Cases checked b k) := by
  simp only [caseLoop] at h
  have hl := quiet_label s
  generalize newLabel s = p at h hl
  obtain ⟨nextL, s0⟩ := p
  dsimp only at h hl
  have semi : ∀ s : CS, Took s ((if s.tok = .semi then s.next else s).expect .end_)
      (fun ts => ts = [.end_] ∨ ts = [.semi, .end_]) := by
    intro s
    split
    · rename_i hs
      refine ((took_next hs (by simp)).seq (took_expect s.next (by simp))).imp fun ts hts => ?_
      obtain ⟨_, _, rfl, rfl, rfl⟩ := hts
      exact Or.inr rfl
    · exact (took_expect s (by simp)).imp fun ts hts => Or.inl hts
  split at h
  · rename_i hel
    obtain ⟨s1, h1, h2⟩ := Option.bind_eq_some_iff.mp h
    cases h2
    have ha := hl.then ((took_next hel (by simp)).quiet (quiet_data .label x.toNat s0.next))
    refine (ha.seq ((ih.stmt _ _ b h1 (hi.took ha)).seq (semi s1))).imp fun ts hts => ?_
    obtain ⟨_, _, rfl, rfl, u, v, rfl, hu, hv⟩ := hts
    exact Cases.other (k := k) (ss := u) (es := v) hu hv
  · have hl2 := quiet_label s0
    generalize newLabel s0 = p at h hl2
    obtain ⟨stmtL, s1⟩ := p
    dsimp only at h hl2
    obtain ⟨s2, h1, h2⟩ := Option.bind_eq_some_iff.mp h
    obtain ⟨s3, h3, h4⟩ := Option.bind_eq_some_iff.mp h2
    have ha := ((hl.trans hl2).trans (quiet_data .label x.toNat s1)).then (caseConsts_took k h1)
    have hb := ha.seq ((took_expect s2 (t := .colon) (by simp)).quiet (quiet_data .label stmtL.toNat _))
    have hc := hb.seq ((ih.stmt _ _ b h3 (hi.took hb)).quiet (quiet_data .jmp y.toNat s3))
    generalize genData .jmp y.toNat s3 = s4 at h4 hc
    by_cases hsm : s4.tok = .semi
    · rw [if_pos (Or.inl hsm), if_pos hsm] at h4
      split at h4
      · rename_i hen
        cases h4
        have hq := quiet_data .label nextL.toNat s4.next
        refine (hc.seq ((took_next hsm (by simp)).seq (hq.then (took_next (t := .end_) ((tok_quiet hq).trans hen)
          (by simp))))).imp fun ts hts => ?_
        obtain ⟨_, _, rfl, ⟨_, v, rfl, ⟨u, _, rfl, hu, rfl⟩, hv⟩, _, _, rfl, rfl, rfl⟩ := hts
        have := Cases.last hu hv (Or.inr rfl)
        simpa using this
      · have hd := hc.seq (took_next hsm (by simp))
        refine (hd.seq (ih.cases _ _ _ _ b k h4 (hi.took hd))).imp fun ts hts => ?_
        obtain ⟨_, w, rfl, ⟨_, _, rfl, ⟨_, v, rfl, ⟨u, _, rfl, hu, rfl⟩, hv⟩, rfl⟩, hw⟩ := hts
        have := Cases.more hu hv hw
        simpa using this
    · by_cases hen : s4.tok = .end_
      · rw [if_pos (Or.inr hen), if_neg hsm, if_pos hen] at h4
        cases h4
        have hq := quiet_data .label nextL.toNat s4
        refine (hc.seq (hq.then (took_next (t := .end_) ((tok_quiet hq).trans hen) (by simp)))).imp fun ts hts => ?_
        obtain ⟨_, _, rfl, ⟨_, v, rfl, ⟨u, _, rfl, hu, rfl⟩, hv⟩, rfl⟩ := hts
        have := Cases.last hu hv (Or.inl rfl)
        simpa using this
      · rw [if_neg (by rintro (e | e); exact hsm e; exact hen e)] at h4
        cases h4
        exact hc.err

theorem knownS_for {g : Cfg} {n : Nat} (ih : KnownS g n) (s s' b) (h : forStatement g (n + 1) s = some s')
    (ht : s.tok = .for_) : Took s s' (Stm checked b) := by
  rw [Pas.Src.for_succ] at h
  have hq0 : Quiet s (newLabel (newLabel (newLabel s).2).2).2 :=
    ((quiet_label s).trans (quiet_label _)).trans (quiet_label _)
  generalize newLabel s = p1 at h hq0
  obtain ⟨l1, s01⟩ := p1
  dsimp only at h hq0
  generalize newLabel s01 = p2 at h hq0
  obtain ⟨l2, s02⟩ := p2
  dsimp only at h hq0
  generalize newLabel s02 = p3 at h hq0
  obtain ⟨l3, s03⟩ := p3
  dsimp only at h hq0
  have htk : ({ s03 with cont := l3, brk := l2, adj := 0 } : CS).tok = .for_ := (tok_quiet hq0).trans ht
  have fin : ∀ {s1 : CS}, Took ({ s03 with cont := l3, brk := l2, adj := 0 } : CS) s1 (Stm checked b) →
      Took s { s1 with cont := s.cont, brk := s.brk, adj := s.adj } (Stm checked b) := by
    intro s1 h1
    rw [← hq0.brk, ← hq0.cont]
    exact hq0.then h1.restore
  have bad : Took ({ s03 with cont := l3, brk := l2, adj := 0 } : CS)
      ({ s03 with cont := l3, brk := l2, adj := 0 } : CS).next.err (Stm checked b) := (took_next htk (by simp)).err
  generalize ({ s03 with cont := l3, brk := l2, adj := 0 } : CS) = s0 at h htk fin bad
  cases hv : s0.next.tok with
  | var v =>
    rw [hv] at h
    dsimp only at h
    split at h
    · rename_i hk
      obtain ⟨s1, h1, h2⟩ := Option.bind_eq_some_iff.mp h
      split at h2
      · rename_i hd
        obtain ⟨⟨t2, s2⟩, h3, h4⟩ := Option.bind_eq_some_iff.mp h2
        dsimp only at h4
        obtain ⟨s3, h5, h6⟩ := Option.bind_eq_some_iff.mp h4
        simp only [pure, Option.some.injEq] at h6
        subst h6
        apply fin
        have hp : s1.tok ≠ .period := by rcases hd with e | e <;> rw [e] <;> simp
        have hb := ih.stmt _ _ true h5 (inside_true _)
        have ha := (took_next htk (by simp)).seq ((took_next hv (by simp)).seq ((assignment_took h1).seq
          ((took_next rfl hp).seq ((expr_took h3).seq (took_expect s2 (t := .do_) (by simp))))))
        have ha := ha.quiet ((((quiet_data .label l1.toNat (s2.expect .do_)).trans (quiet_simple .dup _)).trans
          (quiet_ref g .lds v _)).trans (quiet_data (if s1.tok = .downto_ then .jgt else .jlt) l2.toNat _))
        refine ((ha.seq hb).quiet (((((((quiet_data .label l3.toNat s3).trans (quiet_ref g .lds v _)).trans
          (quiet_simple (if s1.tok = .downto_ then .dec else .inc) _)).trans (quiet_ref g .sts v _)).trans
          (quiet_data .jmp l1.toNat _)).trans (quiet_data .label l2.toNat _)).trans (quiet_data .inds (-2) _))).imp
          fun ts hts => ?_
        obtain ⟨_, w, rfl, ⟨_, _, rfl, rfl, _, _, rfl, rfl, _, _, rfl, ⟨u, rfl, hu⟩, _, _, rfl, rfl, z, _, rfl, hz,
          rfl⟩, hw⟩ := hts
        have hnum : Numeric v.kind := by
          revert hk
          cases v.kind <;> intro hk <;> first
            | exact Or.inl trivial
            | exact Or.inr trivial
            | cases hk
        have := Stm.for (b := b) hnum hu hd.symm hz hw
        simpa using this
      · cases h2
    · simp only [pure, Option.some.injEq] at h
      subst h
      exact fin bad
  | other c =>
    rw [hv] at h
    cases h
  | _ =>
    rw [hv] at h
    simp only [pure, Option.some.injEq] at h
    subst h
    exact fin bad

theorem knownS_stmt {g : Cfg} {n : Nat} (ih : KnownS g n) (s s' b) (h : statement g (n + 1) s = some s')
    (hi : Inside s b) : Took s s' (Stm checked b) := by
  rw [Pas.Src.statement_succ g n s _ rfl] at h
  have hq := quiet_gen .line (g.line s.toks.length).1.toNat (g.line s.toks.length).2.toNat s
  generalize gen .line (g.line s.toks.length).1.toNat (g.line s.toks.length).2.toNat s = s0 at h hq
  refine hq.then ?_
  have hi := hi.quiet hq
  cases ht : s0.tok with
  | var v =>
    rw [ht] at h
    have key : Took s0.next s' (fun ts => ∃ es, ts = .assign :: es ∧ Form checked .expr es v.kind) := by
      dsimp only at h
      cases hk : v.kind <;> rw [hk] at h <;>
        first | exact assignment_took h | exact largeAssignment_took h
    refine ((took_next ht (by simp)).seq key).imp fun ts hts => ?_
    obtain ⟨_, _, rfl, rfl, es, rfl, hf⟩ := hts
    exact .assign hf
  | if_ => rw [ht] at h; exact ih.if_ _ _ b h ht hi
  | case_ => rw [ht] at h; exact ih.case_ _ _ b h ht hi
  | repeat_ => rw [ht] at h; exact ih.repeat_ _ _ b h ht
  | while_ => rw [ht] at h; exact ih.while_ _ _ b h ht
  | for_ => rw [ht] at h; exact ih.for_ _ _ b h ht
  | begin_ => rw [ht] at h; exact ih.block _ _ b h ht hi
  | break_ =>
    rw [ht] at h
    cases h
    have hj := jump_took (label := s0.next.brk) (s := s0.next) (b := b) hi.1
    refine ((took_next ht (by simp)).check hj.1 hj.2).imp fun ts hts => ?_
    obtain ⟨rfl, rfl⟩ := hts
    exact .break
  | continue_ =>
    rw [ht] at h
    cases h
    have hj := jump_took (label := s0.next.cont) (s := s0.next) (b := b) hi.2
    refine ((took_next ht (by simp)).check hj.1 hj.2).imp fun ts hts => ?_
    obtain ⟨rfl, rfl⟩ := hts
    exact .continue
  | write_ => rw [ht] at h; exact writeProc_took ht h
  | writeln_ => rw [ht] at h; exact writelnProc_took ht h
  | read_ => rw [ht] at h; exact readProc_took ht h
  | readln_ => rw [ht] at h; exact readlnProc_took ht h
  | proc q => rw [ht] at h; exact procStatement_took ht h
  | arr a =>
    rw [ht] at h
    refine ((took_next ht (by simp)).seq (elementAssignment_took (b := b) h)).imp fun ts hts => ?_
    obtain ⟨_, _, rfl, rfl, hs⟩ := hts
    exact hs
  | _ =>
    rw [ht] at h
    first
      | (cases h; done)
      | (cases h; exact (Quiet.refl _).took.imp fun ts hts => by subst hts; exact .empty)

theorem knownS (g : Cfg) : ∀ n, KnownS g n
  | 0 => ⟨fun _ s' _ h => none_some (a := s') h, fun _ s' _ h => none_some (a := s') h,
    fun _ s' _ h => none_some (a := s') h, fun _ s' _ h => none_some (a := s') h,
    fun _ s' _ h => none_some (a := s') h, fun _ s' _ h => none_some (a := s') h,
    fun _ s' _ h => none_some (a := s') h, fun _ _ _ s' _ _ h => none_some (a := s') h,
    fun _ s' _ h => none_some (a := s') h⟩
  | n + 1 => ⟨knownS_stmt (knownS g n), knownS_stmts (knownS g n), knownS_block (knownS g n), knownS_if (knownS g n),
    knownS_repeat (knownS g n), knownS_while (knownS g n), knownS_case (knownS g n), knownS_cases (knownS g n),
    knownS_for (knownS g n)⟩

end Pas.Accept
