import Verif.Spec.Accept
import Verif.Lemmas.CompParse

/-! Lemmas for C82: what is accepted as an expression is one. -/
namespace Pas.Accept
open Pas.Comp
open Pas.Src (Lvl)

/-- Nothing is read; errors are only added. -/
structure Quiet (s s' : CS) : Prop where
  le : s.errs ≤ s'.errs
  toks : s'.toks = s.toks
  brk : s'.brk = s.brk
  cont : s'.cont = s.cont

theorem Quiet.refl (s : CS) : Quiet s s := ⟨Nat.le_refl _, rfl, rfl, rfl⟩

theorem Quiet.trans {a b c : CS} (h : Quiet a b) (h' : Quiet b c) : Quiet a c :=
  ⟨Nat.le_trans h.le h'.le, h'.toks.trans h.toks, h'.brk.trans h.brk, h'.cont.trans h.cont⟩

theorem quiet_err (s : CS) : Quiet s s.err := ⟨by simp [CS.err], rfl, rfl, rfl⟩

theorem quiet_gen (o : Op) (a b : Int) (s : CS) : Quiet s (gen o a b s) :=
  ⟨by simp only [gen]; omega, rfl, rfl, rfl⟩

theorem quiet_simple (o : Op) (s : CS) : Quiet s (genSimple o s) := quiet_gen _ _ _ _
theorem quiet_data (o : Op) (x : Int) (s : CS) : Quiet s (genData o x s) := quiet_gen _ _ _ _
theorem quiet_long (x : Int) (s : CS) : Quiet s (genLong x s) := quiet_gen _ _ _ _

theorem quiet_ref (g : Cfg) (o : Op) (v : Var) (s : CS) : Quiet s (stackRef g o v s) := by
  unfold stackRef
  split
  · split
    · split
      · exact quiet_err s
      · exact quiet_data _ _ s
    · exact quiet_gen _ _ _ s
  · exact quiet_gen _ _ _ s

theorem quiet_pushLong (n : BitVec 32) (s : CS) : Quiet s (pushLong n s) :=
  (quiet_data _ _ s).trans (quiet_data _ _ _)

theorem quiet_int (find : ET) (n : BitVec 32) (s : CS) : Quiet s (intFactor find n s).2 := by
  unfold intFactor
  split
  · exact quiet_pushLong n s
  · split
    · exact quiet_data _ _ s
    · exact quiet_pushLong n s

theorem quiet_var (g : Cfg) (v : Var) (s : CS) : Quiet s (varFactor g v s) := by
  unfold varFactor
  split <;> first | exact quiet_ref g _ v s | exact (quiet_data _ _ s).trans (quiet_ref g _ v _)

theorem quiet_element (g : Cfg) (a : ArrSym) (s : CS) : Quiet s (elementFactor g a s) := by
  unfold elementFactor
  dsimp only
  split <;> first | exact quiet_ref g _ _ s | exact (quiet_data _ _ s).trans (quiet_ref g _ _ _)

theorem quiet_index (first : Bool) (min size : Nat) (s : CS) : Quiet s (indexGen first min size s) := by
  unfold indexGen
  dsimp only
  have h1 : Quiet s (if min % 65536 ≠ 0 then
      genSimple .sub (genData .push ((min % 65536 : Nat) : Int) s) else s) := by
    split
    · exact (quiet_data _ _ s).trans (quiet_simple _ _)
    · exact .refl s
  refine h1.trans ?_
  generalize (if min % 65536 ≠ 0 then genSimple .sub (genData .push ((min % 65536 : Nat) : Int) s) else s) = s1
  have h2 : Quiet s1 (if size % 65536 ≠ 1 then
      genSimple .mul (genData .push ((size % 65536 : Nat) : Int) s1) else s1) := by
    split
    · exact (quiet_data _ _ _).trans (quiet_simple _ _)
    · exact .refl _
  refine h2.trans ?_
  generalize (if size % 65536 ≠ 1 then
      genSimple .mul (genData .push ((size % 65536 : Nat) : Int) s1) else s1) = s2
  split
  · exact .refl _
  · exact quiet_simple _ _

theorem not_ok (t : ET) (s : CS) : Quiet s (notGen t s) ∧
    ((notGen t s).errs = s.errs → ∀ k : Kind, k.et = t → Numeric k ∨ k = .bool) := by
  have hq : ∀ s, Quiet s (if t.is32 then genLong 0x45 s else genSimple .not_ s) := by
    intro s
    split
    · exact quiet_long _ s
    · exact quiet_simple _ s
  unfold notGen
  dsimp only
  by_cases h : t.is16 = true ∨ t.is32 = true ∨ t = .boolean
  · rw [if_pos h]
    refine ⟨hq s, fun _ k hk => ?_⟩
    subst hk
    cases k <;> simp [Numeric, Narrow, Long, ET.is16, ET.is32, Kind.et] at h ⊢
  · rw [if_neg h]
    refine ⟨(quiet_err s).trans (hq _), fun he => ?_⟩
    have := (hq s.err).le
    simp only [CS.err] at this he
    omega

theorem neg_ok (t : ET) (s : CS) : Quiet s (negGen t s) ∧
    ((negGen t s).errs = s.errs → ∀ k : Kind, k.et = t → Numeric k) := by
  unfold negGen
  split
  · refine ⟨quiet_simple _ s, fun _ k hk => ?_⟩
    subst hk
    cases k <;> simp_all [Numeric, Narrow, Long, ET.is16, ET.is32, Kind.et]
  · split
    · refine ⟨quiet_long _ s, fun _ k hk => ?_⟩
      subst hk
      cases k <;> simp_all [Numeric, Narrow, Long, ET.is16, ET.is32, Kind.et]
    · exact ⟨quiet_err s, fun he => by simp [CS.err] at he⟩

theorem quiet_mul (op : Tk) (t : ET) (s : CS) : Quiet s (mulGen op t s) := by
  unfold mulGen
  split <;> (try split) <;> (try split) <;>
    first | exact quiet_err s | exact quiet_simple _ s | exact quiet_long _ s

theorem mul_ok (op : Tk) (t : ET) (s : CS) : Quiet s (mulGen op t s) ∧
    ((mulGen op t s).errs = s.errs → ∀ k : Kind, k.et = t → MulFirst op k) := by
  refine ⟨quiet_mul op t s, fun he k hk => ?_⟩
  subst hk
  unfold mulGen at he
  split at he <;>
    first
      | (cases k <;> first
          | exact Or.inl trivial
          | exact Or.inr trivial
          | exact Or.inl (Or.inl trivial)
          | exact Or.inl (Or.inr trivial)
          | exact Or.inr rfl
          | (exfalso; simp [CS.err, Kind.et, ET.is16, ET.is32] at he))
      | (exfalso; simp [CS.err] at he)

theorem quiet_add (op : Tk) (t : ET) (s : CS) : Quiet s (addGen op t s) := by
  unfold addGen
  split <;> (try split) <;> (try split) <;>
    first | exact quiet_err s | exact quiet_simple _ s | exact quiet_long _ s

theorem addCheck_ok (t1 t2 : ET) (s : CS) : Quiet s (addCheck t1 t2 s) ∧
    ((addCheck t1 t2 s).errs = s.errs → ∀ k k' : Kind, k.et = t1 → k'.et = t2 → k = k' ∨ Agree k k') := by
  unfold addCheck
  split
  · rename_i h
    refine ⟨.refl s, fun _ k k' hk hk' => ?_⟩
    subst hk
    subst hk'
    cases k <;> cases k' <;> first
      | exact Or.inl rfl
      | exact Or.inr (Or.inl ⟨trivial, trivial⟩)
      | exact Or.inr (Or.inr ⟨trivial, trivial⟩)
      | (simp [Kind.et, ET.is16, ET.is32] at h)
  · exact ⟨quiet_err s, fun he => by simp [CS.err] at he⟩

theorem add_ok (op : Tk) (t1 t2 : ET) (s : CS) : Quiet s (addGen op t1 (addCheck t1 t2 s)) ∧
    ((addGen op t1 (addCheck t1 t2 s)).errs = s.errs → ∀ k k' : Kind, k.et = t1 → k'.et = t2 →
      AddTypes op k k') := by
  have hc := addCheck_ok t1 t2 s
  have hg := quiet_add op t1 (addCheck t1 t2 s)
  refine ⟨hc.1.trans hg, fun he k k' hk hk' => ?_⟩
  have h1 := hc.1.le
  have h2 := hg.le
  have h3 := hc.2 (by omega) k k' hk hk'
  have h4 : (addGen op t1 (addCheck t1 t2 s)).errs = (addCheck t1 t2 s).errs := by omega
  clear he h1 h2 hg hc hk'
  generalize addCheck t1 t2 s = s1 at h4
  subst hk
  unfold addGen at h4
  split at h4 <;> first
    | (exfalso; simp [CS.err] at h4; done)
    | (rcases h3 with rfl | h3
       · cases k <;> first
          | exact Or.inl ⟨trivial, trivial⟩
          | exact Or.inr ⟨trivial, trivial⟩
          | exact Or.inl (Or.inl ⟨trivial, trivial⟩)
          | exact Or.inl (Or.inr ⟨trivial, trivial⟩)
          | exact Or.inr ⟨rfl, rfl⟩
          | (exfalso; simp [CS.err, Kind.et, ET.is16, ET.is32] at h4)
       · first | exact h3 | exact Or.inl h3)

theorem relOps_rel {op : Tk} {r : RelOps} (h : relOps op = some r) :
    IsRel op ∧ (r.char = true ↔ op = .eq ∨ op = .ne) := by
  unfold relOps at h
  split at h <;> first | (cases h; refine ⟨by simp [IsRel], by simp⟩) | cases h

theorem rel_ok {op : Tk} {r : RelOps} (h : relOps op = some r) (t1 t2 : ET) (s : CS) :
    Quiet s (relGen r t1 t2 s).2 ∧ ((relGen r t1 t2 s).2.errs = s.errs → ∀ k k' : Kind, k.et = t1 → k'.et = t2 →
      ∃ q : Kind, q.et = (relGen r t1 t2 s).1 ∧ checked.rel op k k' q) := by
  obtain ⟨hop, hch⟩ := relOps_rel h
  have hconv : Quiet s (relConv t1 t2 s).2 ∧ ((relConv t1 t2 s).2.errs = s.errs →
      (t1 = t2 ∧ (relConv t1 t2 s).1 = t1) ∨
      (((t1 = .integer ∧ (t2 = .shortInteger ∨ t2 = .shortWord)) ∨
        ((t1 = .shortInteger ∨ t1 = .shortWord) ∧ t2 = .integer)) ∧ (relConv t1 t2 s).1 = .integer)) := by
    unfold relConv
    split
    · exact ⟨.refl s, fun _ => Or.inl ⟨by assumption, rfl⟩⟩
    · split
      · exact ⟨.refl s, fun _ => Or.inr ⟨Or.inl (by assumption), rfl⟩⟩
      · split
        · exact ⟨.refl s, fun _ => Or.inr ⟨Or.inr (by assumption), rfl⟩⟩
        · exact ⟨quiet_err s, fun he => by simp [CS.err] at he⟩
  unfold relGen
  split
  · rename_i hc
    refine ⟨quiet_simple _ s, fun _ k k' hk hk' => ⟨.bool, rfl, hop, Or.inl ⟨rfl, Or.inr ?_⟩⟩⟩
    obtain ⟨h1, -, h3⟩ := hc
    subst hk
    subst hk'
    cases k <;> cases k' <;> simp [Kind.et] at h1 h3 ⊢
  · rename_i hc
    generalize relConv t1 t2 s = p at hconv
    obtain ⟨t, s1⟩ := p
    dsimp only at hconv ⊢
    obtain ⟨hq, hok⟩ := hconv
    have key : ∀ {s2 : CS}, Quiet s1 s2 → s2.errs = s.errs → s1.errs = s.errs := by
      intro s2 h2 he
      have := hq.le
      have := h2.le
      omega
    have agree : s1.errs = s.errs → ∀ k k' : Kind, k.et = t1 → k'.et = t2 → t.is16 = true ∨ t.is32 = true →
        Agree k k' := by
      intro he k k' hk hk' ht
      subst hk
      subst hk'
      rcases hok he with ⟨h1, h2⟩ | ⟨h1, h2⟩
      · subst h2
        cases k <;> cases k' <;> first
          | exact Or.inl ⟨trivial, trivial⟩
          | exact Or.inr ⟨trivial, trivial⟩
          | (simp [Kind.et] at h1; done)
          | (simp [Kind.et, ET.is16, ET.is32] at ht; done)
      · cases k <;> cases k' <;> first
          | exact Or.inl ⟨trivial, trivial⟩
          | exact Or.inr ⟨trivial, trivial⟩
          | (simp [Kind.et] at h1)
    split
    · refine ⟨hq.trans (quiet_simple _ s1), fun he k k' hk hk' =>
        ⟨.bool, rfl, hop, Or.inl ⟨rfl, Or.inl (agree (key (quiet_simple _ s1) he) k k' hk hk' (Or.inl rfl))⟩⟩⟩
    · refine ⟨hq.trans (quiet_simple _ s1), fun he k k' hk hk' =>
        ⟨.bool, rfl, hop, Or.inl ⟨rfl, Or.inl (agree (key (quiet_simple _ s1) he) k k' hk hk' (Or.inl rfl))⟩⟩⟩
    · refine ⟨hq.trans (quiet_long _ s1), fun he k k' hk hk' =>
        ⟨.bool, rfl, hop, Or.inl ⟨rfl, Or.inl (agree (key (quiet_long _ s1) he) k k' hk hk' (Or.inr rfl))⟩⟩⟩
    · refine ⟨hq.trans (quiet_simple _ s1), fun he k k' hk hk' =>
        ⟨.bool, rfl, hop, Or.inl ⟨rfl, Or.inl (agree (key (quiet_simple _ s1) he) k k' hk hk' (Or.inl rfl))⟩⟩⟩
    · refine ⟨hq.trans (quiet_simple _ s1), fun he k k' hk hk' =>
        ⟨.bool, rfl, hop, Or.inl ⟨rfl, Or.inl (agree (key (quiet_simple _ s1) he) k k' hk hk' (Or.inl rfl))⟩⟩⟩
    · refine ⟨hq.trans (quiet_long _ s1), fun he k k' hk hk' =>
        ⟨.bool, rfl, hop, Or.inl ⟨rfl, Or.inl (agree (key (quiet_long _ s1) he) k k' hk hk' (Or.inr rfl))⟩⟩⟩
    · rename_i n1 n2 n3 n4 n5 n6
      refine ⟨hq, fun he k k' hk hk' => ?_⟩
      dsimp only at he
      subst hk
      subst hk'
      rcases hok he with ⟨h1, h2⟩ | ⟨h1, h2⟩
      · have hkk : k' = k := by cases k <;> cases k' <;> first | rfl | (simp [Kind.et] at h1)
        subst hkk
        have hb : k' = .char ∨ k' = .bool := by
          cases k' <;> simp_all [Kind.et]
        refine ⟨k', h2.symm, hop, Or.inr ⟨?_, hb, rfl, rfl⟩⟩
        have hn : ¬ r.char = true := by
          intro hr
          apply hc
          refine ⟨rfl, hr, ?_⟩
          rcases hb with rfl | rfl
          · exact Or.inl rfl
          · exact Or.inr rfl
        rw [hch] at hn
        exact ⟨fun e => hn (Or.inl e), fun e => hn (Or.inr e)⟩
      · exact absurd h2 n1

/-- The tokens that have been read, if no error has been found. -/
structure Took (s s' : CS) (Q : List Tk → Prop) : Prop where
  le : s.errs ≤ s'.errs
  brk : s'.brk = s.brk
  cont : s'.cont = s.cont
  read : s'.errs = s.errs → ∃ ts, s.toks = ts ++ s'.toks ∧ Q ts

theorem tok_cons {s : CS} {t : Tk} (h : s.tok = t) (ht : t ≠ .period) : s.toks = t :: s.next.toks := by
  unfold CS.tok at h
  cases hs : s.toks with
  | nil => rw [hs] at h; exact absurd h.symm ht
  | cons a l =>
    rw [hs] at h
    cases h
    simp [CS.next, hs]

theorem took_next {s : CS} {t : Tk} (h : s.tok = t) (ht : t ≠ .period) : Took s s.next (· = [t]) :=
  ⟨Nat.le_refl _, rfl, rfl, fun _ => ⟨[t], by rw [tok_cons h ht]; rfl, rfl⟩⟩

theorem took_expect (s : CS) {t : Tk} (ht : t ≠ .period) : Took s (s.expect t) (· = [t]) := by
  unfold CS.expect
  split
  · rename_i h
    exact took_next h ht
  · exact ⟨by simp [CS.err], rfl, rfl, fun he => by simp [CS.err] at he⟩

theorem Quiet.took {s s' : CS} (h : Quiet s s') : Took s s' (· = []) :=
  ⟨h.le, h.brk, h.cont, fun _ => ⟨[], by rw [h.toks]; rfl, rfl⟩⟩

theorem Took.imp {s s' : CS} {Q Q' : List Tk → Prop} (h : Took s s' Q) (hQ : ∀ ts, Q ts → Q' ts) : Took s s' Q' :=
  ⟨h.le, h.brk, h.cont, fun he => by
    obtain ⟨ts, h1, h2⟩ := h.read he
    exact ⟨ts, h1, hQ ts h2⟩⟩

/-- One after the other; what is known of the second part may rest on the first one. -/
theorem Took.seq {a b c : CS} {Q Q' : List Tk → Prop} (h : Took a b Q) (h' : Took b c Q') :
    Took a c (fun ts => ∃ u v, ts = u ++ v ∧ Q u ∧ Q' v) := by
  refine ⟨Nat.le_trans h.le h'.le, h'.brk.trans h.brk, h'.cont.trans h.cont, fun he => ?_⟩
  have := h.le
  have := h'.le
  obtain ⟨u, h1, h2⟩ := h.read (by omega)
  obtain ⟨v, h3, h4⟩ := h'.read (by omega)
  exact ⟨u ++ v, by rw [h1, h3, List.append_assoc], u, v, rfl, h2, h4⟩

/-- Then something is generated, with a check. -/
theorem Took.check {a b c : CS} {Q : List Tk → Prop} {P : Prop} (h : Took a b Q) (h' : Quiet b c)
    (hp : c.errs = b.errs → P) : Took a c (fun ts => Q ts ∧ P) := by
  refine ⟨Nat.le_trans h.le h'.le, h'.brk.trans h.brk, h'.cont.trans h.cont, fun he => ?_⟩
  have := h.le
  have := h'.le
  obtain ⟨u, h1, h2⟩ := h.read (by omega)
  exact ⟨u, by rw [h1, h'.toks], h2, hp (by omega)⟩

theorem Took.quiet {a b c : CS} {Q : List Tk → Prop} (h : Took a b Q) (h' : Quiet b c) : Took a c Q :=
  (h.check (P := True) h' fun _ => trivial).imp fun _ h => h.1

theorem Quiet.then {a b c : CS} {Q : List Tk → Prop} (h : Quiet a b) (h' : Took b c Q) : Took a c Q :=
  (h.took.seq h').imp fun ts h => by
    obtain ⟨u, v, h1, h2, h3⟩ := h
    subst h2
    rw [h1]
    exact h3

theorem failed {s s' : CS} {Q : List Tk → Prop} (h : Quiet s s') (hn : s'.errs ≠ s.errs) : Took s s' Q :=
  ⟨h.le, h.brk, h.cont, fun he => absurd he hn⟩

theorem took_err (s : CS) {Q : List Tk → Prop} : Took s s.err Q := failed (quiet_err s) (by simp [CS.err])

theorem Took.err {s s' : CS} {Q Q' : List Tk → Prop} (h : Took s s' Q) : Took s s'.err Q' := by
  refine ⟨Nat.le_trans h.le (quiet_err s').le, h.brk, h.cont, fun he => ?_⟩
  have := h.le
  simp only [CS.err] at he
  omega

theorem stdFn_tk {c : Nat} {f : StdFn} (h : stdFn c = some f) : ∃ f' : Pas.Src.Fn, Tk.other c = f'.tk ∧
    (match f, f' with
      | .abs, .abs | .sqr, .sqr | .pred, .pred | .succ, .succ | .ord, .ord | .odd, .odd | .chr, .chr => True
      | _, _ => False) := by
  unfold stdFn at h
  split at h
  · rename_i hc; cases h; subst hc; exact ⟨.abs, rfl, trivial⟩
  split at h
  · rename_i hc; cases h; subst hc; exact ⟨.sqr, rfl, trivial⟩
  split at h
  · rename_i hc; cases h; subst hc; exact ⟨.pred, rfl, trivial⟩
  split at h
  · rename_i hc; cases h; subst hc; exact ⟨.succ, rfl, trivial⟩
  split at h
  · rename_i hc; cases h; subst hc; exact ⟨.ord, rfl, trivial⟩
  split at h
  · rename_i hc; cases h; subst hc; exact ⟨.odd, rfl, trivial⟩
  split at h
  · rename_i hc; cases h; subst hc; exact ⟨.chr, rfl, trivial⟩
  · cases h

theorem fn_ok {c : Nat} {f : StdFn} (h : stdFn c = some f) : ∃ f' : Pas.Src.Fn, Tk.other c = f'.tk ∧
    ∀ (t : ET) (s : CS), Took s (f.gen t s).2 (fun ts => ts = [.rparen] ∧
      ∀ k : Kind, k.et = t → (f.find = .unknown ∨ f.find = .anyOrdinal ∨ f.find = t) →
        ∃ r : Kind, r.et = (f.gen t s).1 ∧ checked.fn f' k r) := by
  obtain ⟨f', hf, hff⟩ := stdFn_tk h
  refine ⟨f', hf, fun t s => ?_⟩
  cases f <;> cases f' <;> try exact hff.elim
  · -- abs
    unfold StdFn.gen
    dsimp only
    by_cases ht : t = .integer
    · rw [if_pos ht]
      refine ((quiet_simple _ s).then (took_expect _ (by simp))).imp fun ts hts => ⟨hts, fun k hk _ => ⟨k, hk, ?_, rfl⟩⟩
      subst ht
      cases k <;> first | rfl | cases hk
    · rw [if_neg ht]
      exact failed_of_err s
  · -- sqr
    unfold StdFn.gen
    dsimp only
    by_cases ht : t = .integer ∨ t = .shortInteger
    · rw [if_pos ht]
      refine (((quiet_simple _ s).trans (quiet_simple _ _)).then (took_expect _ (by simp))).imp
        fun ts hts => ⟨hts, fun k hk _ => ⟨k, hk, ?_, rfl⟩⟩
      subst hk
      cases k <;> first | trivial | (simp [Kind.et] at ht)
    · rw [if_neg ht]
      by_cases ht' : t = .word ∨ t = .shortWord
      · rw [if_pos ht']
        refine (((quiet_simple _ s).trans (quiet_simple _ _)).then (took_expect _ (by simp))).imp
          fun ts hts => ⟨hts, fun k hk _ => ⟨k, hk, ?_, rfl⟩⟩
        subst hk
        cases k <;> first | trivial | (simp [Kind.et] at ht')
      · rw [if_neg ht']
        exact failed_of_err s
  · exact ((took_expect s (by simp)).quiet (quiet_simple _ _)).imp fun ts hts => ⟨hts, fun k hk _ => ⟨k, hk, rfl⟩⟩
  · exact ((took_expect s (by simp)).quiet (quiet_simple _ _)).imp fun ts hts => ⟨hts, fun k hk _ => ⟨k, hk, rfl⟩⟩
  · exact (took_expect s (by simp)).imp fun ts hts => ⟨hts, fun k hk _ => ⟨.int, rfl, rfl⟩⟩
  · exact ((took_expect s (by simp)).quiet
      (((quiet_data _ _ _).trans (quiet_simple _ _)).trans (quiet_simple _ _))).imp
        fun ts hts => ⟨hts, fun k hk _ => ⟨.bool, rfl, rfl⟩⟩
  · refine (took_expect s (by simp)).imp fun ts hts => ⟨hts, fun k hk hx => ⟨.char, rfl, ?_, rfl⟩⟩
    have ht : t = .integer := by
      rcases hx with hx | hx | hx
      · cases hx
      · cases hx
      · exact hx.symm
    subst ht
    cases k <;> first | rfl | cases hk
where
  failed_of_err (s : CS) {t : Tk} {Q : List Tk → Prop} : Took s (s.err.expect t) Q := by
    unfold CS.expect
    split
    · exact ⟨by simp [CS.err, CS.next], rfl, rfl, fun he => by simp [CS.err, CS.next] at he⟩
    · exact ⟨by simp only [CS.err]; omega, rfl, rfl, fun he => by simp only [CS.err] at he; omega⟩

theorem type_ok (find t : ET) (s : CS) : Quiet s (typeCheck find t s) ∧
    ((typeCheck find t s).errs = s.errs → find = .unknown ∨ find = .anyOrdinal ∨ find = t) := by
  unfold typeCheck
  split
  · rename_i h
    refine ⟨.refl s, fun _ => ?_⟩
    rcases h with h | h | h
    · exact Or.inl h
    · exact Or.inr (Or.inr h)
    · exact Or.inr (Or.inl h.1)
  · exact ⟨quiet_err s, fun he => by simp [CS.err] at he⟩

theorem int_ok (find : ET) (n : BitVec 32) (s : CS) : ∃ k : Kind, k.et = (intFactor find n s).1 ∧ LitTypes n k := by
  unfold intFactor
  split
  · rename_i h
    cases find <;> first
      | exact ⟨.longInt, rfl, Or.inl trivial⟩
      | exact ⟨.longWord, rfl, Or.inl trivial⟩
      | cases h
  · split
    · have hn : n.toNat < 65536 := by omega
      dsimp only
      split
      · exact ⟨.shortInt, rfl, Or.inr ⟨trivial, hn⟩⟩
      · split
        · exact ⟨.shortWord, rfl, Or.inr ⟨trivial, hn⟩⟩
        · exact ⟨.int, rfl, Or.inr ⟨trivial, hn⟩⟩
    · exact ⟨.longInt, rfl, Or.inl trivial⟩

/-- An expression of one of the levels has been read. -/
def Is (l : Lvl) (t : ET) (ts : List Tk) : Prop := ∃ k : Kind, k.et = t ∧ Form checked l ts k

/-- What is known of the functions for expressions. -/
structure Known (g : Cfg) (n : Nat) : Prop where
  factor : ∀ find s t s', factor g n find s = some (t, s') → Took s s' (Is .factor t)
  index : ∀ first dims s s', arrayIndex g n first dims s = some s' → Took s.next s' (fun ts =>
    ∃ m is, ts = is ++ [.rbracket] ∧ checked.indices dims.length m ∧ Indices checked m is)
  term : ∀ find s t s', term g n find s = some (t, s') → Took s s' (Is .term t)
  termLoop : ∀ find t1 s t s', termLoop g n find t1 s = some (t, s') → Took s s' (fun ts => t = t1 ∧
    ∀ k pre, Kind.et k = t1 → Form checked .term pre k → Form checked .term (pre ++ ts) k)
  simple : ∀ find s t s', simple g n find s = some (t, s') → Took s s' (Is .simple t)
  simpleLoop : ∀ find t1 s t s', simpleLoop g n find t1 s = some (t, s') → Took s s' (fun ts => t = t1 ∧
    ∀ k pre, Kind.et k = t1 → Form checked .simple pre k → Form checked .simple (pre ++ ts) k)
  expr : ∀ find s t s', expression g n find s = some (t, s') →
    Took s s' (fun ts => Is .expr t ts ∧ (find = .unknown ∨ find = .anyOrdinal ∨ find = t))

theorem et_inj {k k' : Kind} (h : k.et = k'.et) : k = k' := by
  cases k <;> cases k' <;> first | rfl | cases h

theorem not_case {g : Cfg} {n : Nat} {find : ET} {s : CS} {t : ET} {s' : CS} {op : Tk} (hk : s.tok = op)
    (hp : op ≠ .period) (ho : op = .not_ ∨ op = .tilde) (ih : Known g n)
    (h : (do let (t, s) ← Comp.factor g n find s.next; pure (t, notGen t s)) = some (t, s')) :
    Took s s' (Is .factor t) := by
  obtain ⟨⟨t1, s1⟩, h1, h2⟩ := Option.bind_eq_some_iff.mp h
  cases h2
  have hn := not_ok t s1
  refine ((took_next hk hp).seq ((ih.factor _ _ _ _ h1).check hn.1 hn.2)).imp fun ts hts => ?_
  obtain ⟨u, v, rfl, rfl, ⟨k, hk, hf⟩, hc⟩ := hts
  exact ⟨k, hk, .not ho hf (hc k hk)⟩

theorem known_factor {g : Cfg} {n : Nat} (ih : Known g n) (find s t s') (h : factor g (n + 1) find s = some (t, s')) :
    Took s s' (Is .factor t) := by
  rw [Pas.Src.factor_succ] at h
  cases hk : s.tok with
  | int k =>
    rw [hk] at h
    dsimp only at h
    cases h
    obtain ⟨q, h1, h2⟩ := int_ok find k s
    have hq := quiet_int find k s
    refine (hq.then (took_next (t := .int k) ?_ (by simp))).imp fun ts hts => ⟨q, h1, by subst hts; exact .int h2⟩
    unfold CS.tok at hk ⊢
    rw [hq.toks]
    exact hk
  | bool k =>
    rw [hk] at h
    dsimp only at h
    cases h
    refine ((quiet_data .push k.toInt s).then (took_next (t := .bool k) hk (by simp))).imp
      fun ts hts => ⟨.bool, rfl, by subst hts; exact .bool⟩
  | char k =>
    rw [hk] at h
    dsimp only at h
    cases h
    refine ((quiet_data .push k.toInt s).then (took_next (t := .char k) hk (by simp))).imp
      fun ts hts => ⟨.char, rfl, by subst hts; exact .char⟩
  | var v =>
    rw [hk] at h
    dsimp only at h
    cases h
    have hq := quiet_var g v s
    refine (hq.then (took_next (t := .var v) ?_ (by simp))).imp
      fun ts hts => ⟨v.kind, rfl, by subst hts; exact .var⟩
    unfold CS.tok at hk ⊢
    rw [hq.toks]
    exact hk
  | lparen =>
    rw [hk] at h
    obtain ⟨⟨t1, s1⟩, h1, h2⟩ := Option.bind_eq_some_iff.mp h
    cases h2
    refine ((took_next hk (by simp)).seq ((ih.expr _ _ _ _ h1).seq (took_expect s1 (by simp)))).imp fun ts hts => ?_
    obtain ⟨u, v, rfl, rfl, a, b, rfl, ⟨⟨k, hk, hf⟩, -⟩, rfl⟩ := hts
    exact ⟨k, hk, .paren hf⟩
  | tilde =>
    rw [hk] at h
    exact not_case hk (by simp) (Or.inr rfl) ih h
  | not_ =>
    rw [hk] at h
    exact not_case hk (by simp) (Or.inl rfl) ih h
  | other c =>
    rw [hk] at h
    dsimp only at h
    split at h
    · rename_i f hf
      obtain ⟨⟨t1, s1⟩, h1, h2⟩ := Option.bind_eq_some_iff.mp h
      obtain ⟨f', hf', hok⟩ := fn_ok hf
      have hok := hok t1 s1
      simp only [pure, Option.some.injEq] at h2
      rw [h2] at hok
      refine ((took_next hk (by simp)).seq ((took_expect s.next (by simp)).seq ((ih.expr _ _ _ _ h1).seq hok))).imp
        fun ts hts => ?_
      obtain ⟨u, v, rfl, rfl, a, b, rfl, rfl, c, d, rfl, ⟨⟨k, hk, hf⟩, hx⟩, rfl, hfn⟩ := hts
      obtain ⟨r, hr, hfn⟩ := hfn k hk hx
      refine ⟨r, hr, ?_⟩
      rw [hf']
      exact .call hf hfn
    · cases h
  | arr a =>
    rw [hk] at h
    dsimp only at h
    split at h
    · rename_i hb
      obtain ⟨s1, h1, h2⟩ := Option.bind_eq_some_iff.mp h
      cases h2
      refine ((took_next hk (by simp)).seq ((took_next hb (by simp)).seq ((ih.index _ _ _ _ h1).quiet
        (quiet_element g a s1)))).imp fun ts hts => ?_
      obtain ⟨u, v, rfl, rfl, a', b, rfl, rfl, m, is, rfl, hm, hi⟩ := hts
      exact ⟨a.kind, rfl, .index hi hm⟩
    · cases h
  | _ =>
    rw [hk] at h
    first
      | (cases h; exact took_err s)
      | cases h

theorem known_index {g : Cfg} {n : Nat} (ih : Known g n) (first dims s s')
    (h : arrayIndex g (n + 1) first dims s = some s') : Took s.next s' (fun ts =>
      ∃ m is, ts = is ++ [.rbracket] ∧ checked.indices dims.length m ∧ Indices checked m is) := by
  cases dims with
  | nil => simp [arrayIndex] at h
  | cons p dims =>
    obtain ⟨min, size⟩ := p
    simp only [arrayIndex] at h
    obtain ⟨⟨t1, s1⟩, h1, h2⟩ := Option.bind_eq_some_iff.mp h
    dsimp only at h2
    have hq := quiet_index first min size s1
    have hx : Took s.next (indexGen first min size s1) (fun ts => Form checked .expr ts .int) := by
      refine ((ih.expr _ _ _ _ h1).quiet hq).imp fun ts hts => ?_
      obtain ⟨⟨k, hk, hf⟩, hx⟩ := hts
      rcases hx with hx | hx | hx
      · cases hx
      · cases hx
      · subst hx
        rw [show k = .int from et_inj hk] at hf
        exact hf
    generalize indexGen first min size s1 = s2 at h2 hx
    split at h2
    · rename_i hc
      refine (hx.seq ((took_next hc (by simp)).seq (ih.index _ _ _ _ h2))).imp fun ts hts => ?_
      obtain ⟨u, v, rfl, hf, a, b, rfl, rfl, m, is, rfl, hm, hi⟩ := hts
      refine ⟨m + 1, u ++ .comma :: is, by simp, ?_, .more hf hi⟩
      have : m ≤ dims.length := hm
      show m + 1 ≤ dims.length + 1
      omega
    · cases h2
      refine (hx.seq (took_expect s2 (by simp))).imp fun ts hts => ?_
      obtain ⟨u, v, rfl, hf, rfl⟩ := hts
      exact ⟨1, u, rfl, Nat.succ_le_succ (Nat.zero_le _), .one hf⟩

theorem shift_narrow {op : Tk} {k : Kind} (h1 : isShift op = true) (h2 : k.et.is32 = false) (h3 : MulFirst op k) :
    Narrow k := by
  cases op <;> first
    | (simp [isShift] at h1; done)
    | (cases k <;> first | trivial | exact False.elim (h3.elim id id) | cases h2)

theorem known_termLoop {g : Cfg} {n : Nat} (ih : Known g n) (find t1 s t s')
    (h : termLoop g (n + 1) find t1 s = some (t, s')) : Took s s' (fun ts => t = t1 ∧
      ∀ k pre, Kind.et k = t1 → Form checked .term pre k → Form checked .term (pre ++ ts) k) := by
  simp only [Comp.termLoop] at h
  split at h
  · rename_i hm
    have hp : s.tok ≠ .period := by intro e; rw [e] at hm; cases hm
    split at h
    · rename_i hsh
      obtain ⟨⟨t2, s2⟩, h1, h2⟩ := Option.bind_eq_some_iff.mp h
      dsimp only at h2
      have hst : Quiet s2 (shiftType t2 s2).2 ∧ ((shiftType t2 s2).2.errs = s2.errs →
          (shiftType t2 s2).1 = t2 ∧ t2.is32 = false) := by
        unfold shiftType
        split
        · exact ⟨quiet_err s2, fun he => by simp [CS.err] at he⟩
        · rename_i hc
          refine ⟨.refl s2, fun _ => ⟨rfl, ?_⟩⟩
          cases hb : t2.is32
          · rfl
          · exact absurd (Or.inl hb) hc
      generalize hp2 : shiftType t2 s2 = p at h2 hst
      obtain ⟨t3, s3⟩ := p
      dsimp only at h2 hst
      have hmc : Quiet s3 (mulCheck s.tok t1 t3 s3) ∧ ((mulCheck s.tok t1 t3 s3).errs = s3.errs → t1 = t3) := by
        unfold mulCheck
        split
        · exact ⟨quiet_err s3, fun he => by simp [CS.err] at he⟩
        · rename_i hc
          refine ⟨.refl s3, fun _ => ?_⟩
          by_cases e : t1 = t3
          · exact e
          · exact absurd ⟨e, hsh⟩ hc
      have hmg := mul_ok s.tok t1 (mulCheck s.tok t1 t3 s3)
      refine ((took_next rfl hp).seq ((((ih.factor _ _ _ _ h1).check hst.1 hst.2).check hmc.1 hmc.2).check hmg.1 hmg.2
        |>.seq (ih.termLoop _ _ _ _ _ h2))).imp fun ts hts => ?_
      obtain ⟨u, v, rfl, rfl, a, b, rfl, ⟨⟨⟨⟨k', hk', hf⟩, h3, h32⟩, h13⟩, hmf⟩, ht, hl⟩ := hts
      refine ⟨ht, fun k pre hk hpre => ?_⟩
      have hkk : k' = k := et_inj (by rw [hk', hk, h13, h3])
      subst hkk
      have hmf' := hmf k' hk
      clear hmf
      have := hl k' (pre ++ s.tok :: a) hk (.mul hpre hf ⟨hmf', fun _ => ⟨rfl, ?_⟩⟩)
      · simpa using this
      · subst hk'
        exact shift_narrow hsh h32 hmf'
    · obtain ⟨⟨t2, s2⟩, h1, h2⟩ := Option.bind_eq_some_iff.mp h
      rename_i hsh
      dsimp only at h2
      have hmc : Quiet s2 (mulCheck s.tok t1 t2 s2) := by
        unfold mulCheck
        split
        · exact quiet_err s2
        · exact .refl s2
      have hmg := mul_ok s.tok t1 (mulCheck s.tok t1 t2 s2)
      refine ((took_next rfl hp).seq (((ih.factor _ _ _ _ h1).quiet hmc).check hmg.1 hmg.2
        |>.seq (ih.termLoop _ _ _ _ _ h2))).imp fun ts hts => ?_
      obtain ⟨u, v, rfl, rfl, a, b, rfl, ⟨⟨k', hk', hf⟩, hmf⟩, ht, hl⟩ := hts
      refine ⟨ht, fun k pre hk hpre => ?_⟩
      have := hl k (pre ++ s.tok :: a) hk (.mul hpre hf ⟨hmf k hk, fun e => ?_⟩)
      · simpa using this
      · exfalso
        apply hsh
        simpa [isShift] using e
  · cases h
    refine ⟨Nat.le_refl _, rfl, rfl, fun _ => ⟨[], rfl, rfl, fun k pre _ hpre => by simpa using hpre⟩⟩

theorem known_simpleLoop {g : Cfg} {n : Nat} (ih : Known g n) (find t1 s t s')
    (h : simpleLoop g (n + 1) find t1 s = some (t, s')) : Took s s' (fun ts => t = t1 ∧
      ∀ k pre, Kind.et k = t1 → Form checked .simple pre k → Form checked .simple (pre ++ ts) k) := by
  simp only [Comp.simpleLoop] at h
  split at h
  · rename_i hm
    have hp : s.tok ≠ .period := by intro e; rw [e] at hm; cases hm
    split at h
    · cases h
    · obtain ⟨⟨t2, s2⟩, h1, h2⟩ := Option.bind_eq_some_iff.mp h
      dsimp only at h2
      have hmg := add_ok s.tok t1 t2 s2
      refine ((took_next rfl hp).seq (((ih.term _ _ _ _ h1).check hmg.1 hmg.2)
        |>.seq (ih.simpleLoop _ _ _ _ _ h2))).imp fun ts hts => ?_
      obtain ⟨u, v, rfl, rfl, a, b, rfl, ⟨⟨k', hk', hf⟩, hmf⟩, ht, hl⟩ := hts
      refine ⟨ht, fun k pre hk hpre => ?_⟩
      have := hl k (pre ++ s.tok :: a) hk (.add hpre hf (hmf k k' hk hk'))
      simpa using this
  · cases h
    refine ⟨Nat.le_refl _, rfl, rfl, fun _ => ⟨[], rfl, rfl, fun k pre _ hpre => by simpa using hpre⟩⟩

theorem known_term {g : Cfg} {n : Nat} (ih : Known g n) (find s t s') (h : term g (n + 1) find s = some (t, s')) :
    Took s s' (Is .term t) := by
  simp only [Comp.term] at h
  obtain ⟨⟨t1, s1⟩, h1, h2⟩ := Option.bind_eq_some_iff.mp h
  refine ((ih.factor _ _ _ _ h1).seq (ih.termLoop _ _ _ _ _ h2)).imp fun ts hts => ?_
  obtain ⟨u, v, rfl, ⟨k, hk, hf⟩, ht, hl⟩ := hts
  exact ⟨k, by rw [hk, ht], hl k u hk (.factor hf)⟩

theorem known_simple {g : Cfg} {n : Nat} (ih : Known g n) (find s t s') (h : simple g (n + 1) find s = some (t, s')) :
    Took s s' (Is .simple t) := by
  simp only [Comp.simple] at h
  obtain ⟨⟨t1, s1⟩, h1, h2⟩ := Option.bind_eq_some_iff.mp h
  dsimp only at h2
  have tail : ∀ {s0 : CS}, Took s0 s1 (Is .term t1) → ∀ {s2 : CS} {P : Kind → Prop}, Quiet s1 s2 →
      (s2.errs = s1.errs → ∀ k : Kind, k.et = t1 → P k) → ∀ {find}, simpleLoop g n find t1 s2 = some (t, s') →
      Took s0 s' (fun ts => t = t1 ∧ ∃ k u v, ts = u ++ v ∧ Kind.et k = t ∧ Form checked .term u k ∧ P k ∧
        ∀ pre, Form checked .simple pre k → Form checked .simple (pre ++ v) k) := by
    intro s0 h0 s2 P hq hP find hl
    refine ((h0.check hq hP).seq (ih.simpleLoop _ _ _ _ _ hl)).imp fun ts hts => ?_
    obtain ⟨u, v, rfl, ⟨⟨k, hk, hf⟩, hp⟩, ht, hl⟩ := hts
    exact ⟨ht, k, u, v, rfl, by rw [hk, ht], hf, hp k hk, fun pre hpre => hl k pre hk hpre⟩
  by_cases hm : s.tok = .minus
  · rw [if_pos (Or.inr hm)] at h1
    rw [if_pos hm] at h2
    have hn := neg_ok t1 s1
    refine ((took_next hm (by simp)).seq (tail (ih.term _ _ _ _ h1) hn.1 hn.2 h2)).imp fun ts hts => ?_
    obtain ⟨a, b, rfl, rfl, ht, k, u, v, rfl, hk, hf, hp, hl⟩ := hts
    exact ⟨k, hk, by simpa using hl _ (.minus hf hp)⟩
  · rw [if_neg hm] at h2
    by_cases hpl : s.tok = .plus
    · rw [if_pos (Or.inl hpl)] at h1
      refine ((took_next hpl (by simp)).seq (tail (ih.term _ _ _ _ h1) (P := fun _ => True) (.refl s1)
        (fun _ _ _ => trivial) h2)).imp fun ts hts => ?_
      obtain ⟨a, b, rfl, rfl, ht, k, u, v, rfl, hk, hf, hp, hl⟩ := hts
      exact ⟨k, hk, by simpa using hl _ (.plus hf trivial)⟩
    · rw [if_neg (by rintro (e | e); exact hpl e; exact hm e)] at h1
      refine (tail (ih.term _ _ _ _ h1) (P := fun _ => True) (.refl s1) (fun _ _ _ => trivial) h2).imp fun ts hts => ?_
      obtain ⟨ht, k, u, v, rfl, hk, hf, hp, hl⟩ := hts
      exact ⟨k, hk, by simpa using hl _ (.term hf)⟩

theorem known_expr {g : Cfg} {n : Nat} (ih : Known g n) (find s t s')
    (h : expression g (n + 1) find s = some (t, s')) :
    Took s s' (fun ts => Is .expr t ts ∧ (find = .unknown ∨ find = .anyOrdinal ∨ find = t)) := by
  simp only [Comp.expression] at h
  obtain ⟨⟨t1, s1⟩, h1, h2⟩ := Option.bind_eq_some_iff.mp h
  dsimp only at h2
  split at h2
  · cases h2
  · split at h2
    · cases h2
      have ht := type_ok find t s1
      refine ((ih.simple _ _ _ _ h1).check ht.1 ht.2).imp fun ts hts => ?_
      obtain ⟨⟨k, hk, hf⟩, hx⟩ := hts
      exact ⟨⟨k, hk, .simple hf⟩, hx⟩
    · rename_i r hr
      have hp : s1.tok ≠ .period := by intro e; rw [e] at hr; cases hr
      obtain ⟨⟨t2, s2⟩, h3, h4⟩ := Option.bind_eq_some_iff.mp h2
      dsimp only at h4
      have hrel := rel_ok hr t1 t2 s2
      generalize relGen r t1 t2 s2 = p at h4 hrel
      obtain ⟨t3, s3⟩ := p
      simp only [pure, Option.some.injEq, Prod.mk.injEq] at h4
      obtain ⟨rfl, rfl⟩ := h4
      have ht := type_ok find t3 s3
      refine ((ih.simple _ _ _ _ h1).seq ((took_next rfl hp).seq
        (((ih.simple _ _ _ _ h3).check hrel.1 hrel.2).check ht.1 ht.2))).imp fun ts hts => ?_
      obtain ⟨u, v, rfl, ⟨k, hk, hf⟩, a, b, rfl, rfl, ⟨⟨k', hk', hf'⟩, hc⟩, hx⟩ := hts
      obtain ⟨q, hq, hc⟩ := hc k k' hk hk'
      exact ⟨⟨q, hq, .rel hf hf' hc⟩, hx⟩

theorem none_some {α : Type} {a : α} {P : Prop} (h : (none : Option α) = some a) : P := nomatch h

theorem known (g : Cfg) : ∀ n, Known g n
  | 0 => ⟨fun _ _ t s' h => none_some (a := (t, s')) h, fun _ _ _ s' h => none_some (a := s') h,
    fun _ _ t s' h => none_some (a := (t, s')) h, fun _ _ _ t s' h => none_some (a := (t, s')) h,
    fun _ _ t s' h => none_some (a := (t, s')) h, fun _ _ _ t s' h => none_some (a := (t, s')) h,
    fun _ _ t s' h => none_some (a := (t, s')) h⟩
  | n + 1 => ⟨known_factor (known g n), known_index (known g n), known_term (known g n), known_termLoop (known g n),
    known_simple (known g n), known_simpleLoop (known g n), known_expr (known g n)⟩

end Pas.Accept
