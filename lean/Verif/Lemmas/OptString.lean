import Verif.Lemmas.OptDriver
import Verif.Spec.Optimize

/-! The string pass of the optimizer: what it leaves out. -/
namespace Pas.Popt
open Pas.Spec

theorem DropDup.trans {l l' l'' : List OpType} (h : DropDup l l') (h' : DropDup l' l'') :
    DropDup l l'' := by
  induction h with
  | refl => exact h'
  | read pre post a b c d l ha hb hc hd hd' _ ih => exact .read pre post a b c d _ ha hb hc hd hd' (ih h')
  | copy pre post a b c d e l ha hb hc hd he he' _ ih =>
    exact .copy pre post a b c d e _ ha hb hc hd he he' (ih h')

theorem DropDup.pre {l l' : List OpType} (h : DropDup l l') (p : List OpType) :
    DropDup (p ++ l) (p ++ l') := by
  induction h with
  | refl => exact .refl _
  | read pre post a b c d l ha hb hc hd hd' _ ih =>
    rw [← List.append_assoc] at ih ⊢
    exact .read (p ++ pre) post a b c d _ ha hb hc hd hd' ih
  | copy pre post a b c d e l ha hb hc hd he he' _ ih =>
    rw [← List.append_assoc] at ih ⊢
    exact .copy (p ++ pre) post a b c d e _ ha hb hc hd he he' ih

theorem effective_append (l r : List OpType) : effective (l ++ r) = effective l ++ effective r :=
  List.filter_append ..

theorem effective_drop {x : OpType} (h : opIn [.nop, .line] x = true) (l : List OpType) :
    effective (x :: l) = effective l := by
  unfold effective; rw [List.filter_cons_of_neg (by rw [h]; nofun)]

theorem effective_keep {x : OpType} (h : opIn [.nop, .line] x = false) (l : List OpType) :
    effective (x :: l) = x :: effective l := by
  unfold effective; rw [List.filter_cons_of_pos (by rw [h]; rfl)]

theorem opIn2 {o p : Op} {x : OpType} (h : x.op = o.toByte ∨ x.op = p.toByte) : opIn [o, p] x = true := by
  unfold opIn; rcases h with h | h <;> simp [h]

theorem opIn2_iff {o p : Op} {x : OpType} : opIn [o, p] x = true ↔ x.op = o.toByte ∨ x.op = p.toByte := by
  unfold opIn; simp

/-- The listed instructions of a window. -/
def seen : List OpType → List OpType
  | [] => []
  | x :: r =>
    match listing x with
    | .stop => []
    | .last => [x]
    | .skip => seen r
    | .take => x :: seen r

theorem seen_visL (l : List OpType) : ∀ (p : Nat) (pre : List OpType), pre.length = p → ∀ i q : Nat,
    (visL p l)[i]? = some q → (seen l)[i]? = (pre ++ l)[q]? := by
  induction l with
  | nil => intro p pre _ i q h; simp [visL] at h
  | cons x r ih =>
    intro p pre hp i q h
    simp only [visL, seen] at h ⊢
    have e : pre ++ x :: r = (pre ++ [x]) ++ r := by simp
    cases hl : listing x with
    | stop => rw [hl] at h; simp at h
    | last =>
      rw [hl] at h
      cases i with
      | zero =>
        simp only [List.getElem?_cons_zero, Option.some.injEq] at h
        subst h
        rw [← hp]
        simp
      | succ i => simp at h
    | skip =>
      rw [hl] at h
      dsimp only at h ⊢
      rw [e]
      exact ih (p + 1) (pre ++ [x]) (by simp [hp]) i q h
    | take =>
      rw [hl] at h
      cases i with
      | zero =>
        simp only [List.getElem?_cons_zero, Option.some.injEq] at h
        subst h
        rw [← hp]
        simp
      | succ i =>
        simp only [List.getElem?_cons_succ] at h ⊢
        rw [e]
        exact ih (p + 1) (pre ++ [x]) (by simp [hp]) i q h

theorem get_seen {t : Table} {i : Nat} {x : OpR} (h : get t i = some x) :
    (seen (ops t))[i]? = some x.ins := by
  obtain ⟨p, hp⟩ := get_at h
  have hv := hp.vis
  rw [vis_eq] at hv
  rw [seen_visL (ops t) 0 [] rfl i p hv, List.nil_append]
  exact ops_get hp.tab

theorem listing_skip {x : OpType} (h : listing x = .skip) : opIn [.nop, .line] x = true := by
  unfold listing at h
  split at h <;> first | cases h | skip
  · next e => exact opIn2 (Or.inl (ofByte_some e))
  · next e => exact opIn2 (Or.inr (ofByte_some e))

theorem listing_keep {x : OpType} (h : listing x = .last ∨ listing x = .take) :
    opIn [.nop, .line] x = false ∧ notEnd x = true := by
  refine ⟨?_, ?_⟩
  · cases hb : opIn [.nop, .line] x with
    | false => rfl
    | true =>
      rcases opIn2_iff.mp hb with e | e <;>
        (unfold listing at h; rw [e, Op.ofByte_toByte] at h; rcases h with h | h <;> cases h)
  · unfold notEnd
    simp only [bne_iff_ne, ne_eq]
    intro e
    unfold listing at h; rw [e, Op.ofByte_toByte] at h; rcases h with h | h <;> cases h

theorem skip_notEnd {x : OpType} (h : opIn [.nop, .line] x = true) : notEnd x = true := by
  rcases opIn2_iff.mp h with e | e <;> (unfold notEnd; rw [e]; rfl)

theorem code_cons {x : OpType} (h : notEnd x = true) (l : List OpType) : code (x :: l) = x :: code l := by
  unfold code; rw [List.takeWhile_cons, h]; rfl

/-- The listed instructions come first among the effective ones; dropping a listed one from the
window drops it from the program. -/
theorem seen_cut (b' : OpType) (hb' : opIn [.nop, .line] b' = true) (inp : List OpType) :
    ∀ (l : List OpType) (p i q : Nat) , (visL p l)[i]? = some q →
      ∃ post, effective (code (l ++ inp)) = seen l ++ post ∧
        p ≤ q ∧ effective (code (l.set (q - p) b' ++ inp)) = (seen l).eraseIdx i ++ post := by
  intro l
  induction l with
  | nil => intro p i q h; simp [visL] at h
  | cons x r ih =>
    intro p i q h
    simp only [visL, seen] at h ⊢
    cases hl : listing x with
    | stop => rw [hl] at h; simp at h
    | last =>
      rw [hl] at h
      obtain ⟨k1, k2⟩ := listing_keep (Or.inl hl)
      cases i with
      | zero =>
        simp only [List.getElem?_cons_zero, Option.some.injEq] at h
        subst h
        refine ⟨effective (code (r ++ inp)), ?_, Nat.le_refl _, ?_⟩
        · rw [List.cons_append, code_cons k2, effective_keep k1]; rfl
        · rw [Nat.sub_self, List.set_cons_zero, List.cons_append, code_cons (skip_notEnd hb'),
            effective_drop hb']
          rfl
      | succ i => simp at h
    | skip =>
      rw [hl] at h
      have k := listing_skip hl
      obtain ⟨post, e1, e2, e3⟩ := ih (p + 1) i q h
      refine ⟨post, ?_, by omega, ?_⟩
      · rw [List.cons_append, code_cons (skip_notEnd k), effective_drop k]; exact e1
      · have : q - p = (q - (p + 1)) + 1 := by omega
        rw [this, List.set_cons_succ, List.cons_append, code_cons (skip_notEnd k), effective_drop k]
        exact e3
    | take =>
      rw [hl] at h
      obtain ⟨k1, k2⟩ := listing_keep (Or.inr hl)
      cases i with
      | zero =>
        simp only [List.getElem?_cons_zero, Option.some.injEq] at h
        subst h
        -- the rest of the listed instructions are those of the rest of the window
        have hr : ∃ post, effective (code (r ++ inp)) = seen r ++ post := by
          clear ih hl
          induction r with
          | nil => exact ⟨_, rfl⟩
          | cons y r ih =>
            simp only [seen]
            cases hl : listing y with
            | stop => exact ⟨_, rfl⟩
            | last =>
              obtain ⟨k1, k2⟩ := listing_keep (Or.inl hl)
              exact ⟨effective (code (r ++ inp)), by
                rw [List.cons_append, code_cons k2, effective_keep k1]; rfl⟩
            | skip =>
              have k := listing_skip hl
              obtain ⟨post, e⟩ := ih
              exact ⟨post, by rw [List.cons_append, code_cons (skip_notEnd k), effective_drop k]; exact e⟩
            | take =>
              obtain ⟨k1, k2⟩ := listing_keep (Or.inr hl)
              obtain ⟨post, e⟩ := ih
              exact ⟨post, by rw [List.cons_append, code_cons k2, effective_keep k1, e]; rfl⟩
        obtain ⟨post, e⟩ := hr
        refine ⟨post, ?_, Nat.le_refl _, ?_⟩
        · rw [List.cons_append, code_cons k2, effective_keep k1, e]; rfl
        · rw [Nat.sub_self, List.set_cons_zero, List.cons_append, code_cons (skip_notEnd hb'),
            effective_drop hb', e]
          rfl
      | succ i =>
        simp only [List.getElem?_cons_succ] at h
        obtain ⟨post, e1, e2, e3⟩ := ih (p + 1) i q h
        refine ⟨post, ?_, by omega, ?_⟩
        · rw [List.cons_append, code_cons k2, effective_keep k1, e1]; rfl
        · have : q - p = (q - (p + 1)) + 1 := by omega
          rw [this, List.set_cons_succ, List.cons_append, code_cons k2, effective_keep k1, e3]
          rfl

theorem split_at : ∀ (l : List OpType) (i : Nat) (a : OpType), l[i]? = some a →
    l = l.take i ++ a :: l.drop (i + 1) := by
  intro l i a h
  obtain ⟨hi, rfl⟩ := List.getElem?_eq_some_iff.mp h
  rw [← List.drop_eq_getElem_cons hi, List.take_append_drop]

theorem alloc_ok {x : OpType} (h : isAllocLoad x = true) : opIn [.ld, .lds, .push, .pushb] x = true := by
  unfold isAllocLoad at h
  split at h <;> first | cases h | skip
  all_goals
    next e =>
      have := ofByte_some e
      unfold opIn
      simp [this]

theorem nop_drop : opIn [.nop, .line] nop = true := by decide

/-- One step of the string pass. -/
theorem stringStep_cut {t : Table} {i : Nat} {r : Step} (h : stringStep t i = .ok r)
    (inp : List OpType) : DropDup (effective (code (ops t ++ inp))) (effective (code (ops r.1 ++ inp))) := by
  unfold stringStep at h
  cases ha : get t i with
  | none => rw [ha] at h; cases h
  | some a =>
    cases hb : get t (i + 1) with
    | none => rw [ha, hb] at h; cases h
    | some b =>
      cases hc : get t (i + 2) with
      | none => rw [ha, hb, hc] at h; cases h
      | some c =>
        rw [ha, hb, hc] at h
        dsimp only at h
        obtain ⟨p, hp⟩ := get_at hb
        have hv := hp.vis
        rw [vis_eq] at hv
        obtain ⟨post, e1, _, e3⟩ := seen_cut nop nop_drop inp (ops t) 0 (i + 1) p hv
        rw [Nat.sub_zero, ← ops_adjust hp (fun _ => nop)] at e3
        have ga := get_seen ha
        have gb := get_seen hb
        have gc := get_seen hc
        have idle : ∀ k, DropDup (effective (code (ops t ++ inp)))
            (effective (code (ops ((t, i + 1, k) : Step).1 ++ inp))) := fun _ => .refl _
        split at h
        · next hab =>
          obtain ⟨h1, h2, h3⟩ := hab
          cases hd : get t (i + 3) with
          | none => rw [hd] at h; cases h; exact idle 0
          | some d =>
            rw [hd] at h
            dsimp only at h
            have gd := get_seen hd
            split at h
            · next hcd =>
              obtain ⟨q1, q2, q3⟩ := hcd
              cases h
              show DropDup _ (effective (code (ops (adjust t (i + 1) fun _ => nop) ++ inp)))
              rw [e1, e3]
              have es : seen (ops t) = (seen (ops t)).take i ++ a.ins :: b.ins :: c.ins :: d.ins ::
                  (seen (ops t)).drop (i + 4) := by
                have s1 := split_at _ _ _ ga
                have s2 := split_at ((seen (ops t)).drop (i + 1)) 0 b.ins (by rw [List.getElem?_drop]; exact gb)
                have s3 := split_at ((seen (ops t)).drop (i + 2)) 0 c.ins (by rw [List.getElem?_drop]; exact gc)
                have s4 := split_at ((seen (ops t)).drop (i + 3)) 0 d.ins (by rw [List.getElem?_drop]; exact gd)
                simp only [List.take_zero, List.nil_append, List.drop_drop] at s2 s3 s4
                rw [← s4, ← s3, ← s2, ← s1]
              have hlen : ((seen (ops t)).take i).length = i := by
                rw [List.length_take]
                have := (List.getElem?_eq_some_iff.mp ga).1
                omega
              generalize (seen (ops t)).take i = pre at es hlen
              generalize (seen (ops t)).drop (i + 4) = suf at es
              rw [es]
              have er : (pre ++ a.ins :: b.ins :: c.ins :: d.ins :: suf).eraseIdx (i + 1) =
                  pre ++ a.ins :: c.ins :: d.ins :: suf := by
                rw [List.eraseIdx_append_of_length_le (by omega), hlen,
                  show i + 1 - i = 1 by omega]
                rfl
              rw [er]
              simp only [List.append_assoc, List.cons_append]
              refine .read pre (suf ++ post) _ _ _ _ _ h1 ⟨h2, h3⟩ (alloc_ok q1) q2 ?_ (.refl _)
              unfold readsString at q3
              simp only [Bool.or_eq_true, beq_iff_eq] at q3
              rcases q3 with (((q3 | q3) | q3) | q3) | q3 <;> rw [q3] <;> decide
            · cases he : get t (i + 4) with
              | none => rw [he] at h; cases h; exact idle 0
              | some e =>
                rw [he] at h
                dsimp only at h
                split at h
                · next hcd =>
                  obtain ⟨q1, q2, q3, q4⟩ := hcd
                  cases h
                  show DropDup _ (effective (code (ops (adjust t (i + 1) fun _ => nop) ++ inp)))
                  rw [e1, e3]
                  have ge := get_seen he
                  have es : seen (ops t) = (seen (ops t)).take i ++ a.ins :: b.ins :: c.ins :: d.ins ::
                      e.ins :: (seen (ops t)).drop (i + 5) := by
                    have s1 := split_at _ _ _ ga
                    have s2 := split_at ((seen (ops t)).drop (i + 1)) 0 b.ins (by rw [List.getElem?_drop]; exact gb)
                    have s3 := split_at ((seen (ops t)).drop (i + 2)) 0 c.ins (by rw [List.getElem?_drop]; exact gc)
                    have s4 := split_at ((seen (ops t)).drop (i + 3)) 0 d.ins (by rw [List.getElem?_drop]; exact gd)
                    have s5 := split_at ((seen (ops t)).drop (i + 4)) 0 e.ins (by rw [List.getElem?_drop]; exact ge)
                    simp only [List.take_zero, List.nil_append, List.drop_drop] at s2 s3 s4 s5
                    rw [← s5, ← s4, ← s3, ← s2, ← s1]
                  have hlen : ((seen (ops t)).take i).length = i := by
                    rw [List.length_take]
                    have := (List.getElem?_eq_some_iff.mp ga).1
                    omega
                  generalize (seen (ops t)).take i = pre at es hlen
                  generalize (seen (ops t)).drop (i + 5) = suf at es
                  rw [es]
                  have er : (pre ++ a.ins :: b.ins :: c.ins :: d.ins :: e.ins :: suf).eraseIdx (i + 1) =
                      pre ++ a.ins :: c.ins :: d.ins :: e.ins :: suf := by
                    rw [List.eraseIdx_append_of_length_le (by omega), hlen,
                      show i + 1 - i = 1 by omega]
                    rfl
                  rw [er]
                  simp only [List.append_assoc, List.cons_append]
                  refine .copy pre (suf ++ post) _ _ _ _ _ _ h1 ⟨h2, h3⟩ (alloc_ok q1) (opIn2 q2) q3 ?_ (.refl _)
                  unfold copiesString at q4
                  simp only [Bool.or_eq_true, beq_iff_eq] at q4
                  rcases q4 with q4 | q4 <;> rw [q4] <;> decide
                · cases h; exact idle 0
        · cases h; exact idle 0

theorem stringLoop_cut (inp : List OpType) : ∀ (fuel : Nat) (t : Table) (i n : Nat) (r : Table × Nat),
    loop stringStep 2 fuel t i n = .ok r →
      DropDup (effective (code (ops t ++ inp))) (effective (code (ops r.1 ++ inp))) := by
  intro fuel
  induction fuel with
  | zero => intro t i n r h; cases h
  | succ fuel ih =>
    intro t i n r h
    unfold loop at h
    split at h
    · rw [Res.bind_eq_ok] at h
      obtain ⟨⟨t', i', k⟩, h1, h2⟩ := h
      exact DropDup.trans (stringStep_cut h1 inp) (ih t' i' (n + k) r h2)
    · cases h; exact .refl _

theorem stringSettle_cut (inp : List OpType) : ∀ (fuel : Nat) (t t' : Table),
    settle stringRound fuel t = .ok t' →
      DropDup (effective (code (ops t ++ inp))) (effective (code (ops t' ++ inp))) := by
  intro fuel
  induction fuel with
  | zero => intro t t' h; cases h
  | succ fuel ih =>
    intro t t' h
    unfold settle at h
    rw [Res.bind_eq_ok] at h
    obtain ⟨⟨t₁, n⟩, h1, h2⟩ := h
    have g := stringLoop_cut inp _ _ _ _ _ h1
    dsimp only at h2
    split at h2
    · exact DropDup.trans g (ih t₁ t' h2)
    · cases h2; exact g

theorem nop_effective {x : OpType} (h : x.op = Op.nop.toByte) : opIn [.nop, .line] x = true := opIn2 (Or.inl h)

/-- Deleting the oNOPs from the window changes nothing. -/
theorem effective_kept (rest : Table) (inp : List OpType) :
    effective (code (ops (rest.filter fun y => y.ins.op ≠ Op.nop.toByte) ++ inp)) =
      effective (code (ops rest ++ inp)) := by
  induction rest with
  | nil => rfl
  | cons x r ih =>
    by_cases h : x.ins.op = Op.nop.toByte
    · rw [List.filter_cons_of_neg (by simp [h])]
      show _ = effective (code (x.ins :: (ops r ++ inp)))
      rw [code_cons (nop_notEnd h), effective_drop (nop_effective h)]
      exact ih
    · rw [List.filter_cons_of_pos (by simp [h])]
      show effective (code (x.ins :: (ops _ ++ inp))) = effective (code (x.ins :: (ops r ++ inp)))
      cases he : notEnd x.ins with
      | true =>
        rw [code_cons he, code_cons he]
        cases ho : opIn [.nop, .line] x.ins with
        | true => rw [effective_drop ho, effective_drop ho, ih]
        | false => rw [effective_keep ho, effective_keep ho, ih]
      | false =>
        unfold code
        rw [List.takeWhile_cons, List.takeWhile_cons, he]
        rfl

/-- The window moves on. -/
theorem effective_update (s : Pass) (hne : s.table ≠ []) :
    (update s).2 = false ∧ effective ((update s).1.out ++ code (stream (update s).1)) =
        effective (s.out ++ code (stream s)) ∨
      (update s).2 = true ∧ ∃ e, e.op = Op.end_.toByte ∧ (update s).1.out = s.out ++ [e] ∧
        code (stream s) = [] := by
  cases ht : s.table with
  | nil => exact absurd ht hne
  | cons x rest =>
    have hst : stream s = x.ins :: (ops rest ++ s.input) := by unfold stream; rw [ht]; rfl
    by_cases he : x.ins.op = Op.end_.toByte
    · right
      have hne : notEnd x.ins = false := by unfold notEnd; rw [he]; rfl
      unfold update
      rw [ht]
      dsimp only
      refine ⟨by rw [he]; rfl, x.ins, he, ?_, ?_⟩
      · rw [if_pos (by rw [he]; decide), (fill_spec _ _).1]
        exact emit_out s x
      · rw [hst]; unfold code; rw [List.takeWhile_cons, hne]; rfl
    · left
      have hne : notEnd x.ins = true := by
        unfold notEnd; simp only [bne_iff_ne, ne_eq]; exact he
      have hc : code (stream s) = x.ins :: code (ops rest ++ s.input) := by
        rw [hst, code_cons hne]
      unfold update
      rw [ht]
      dsimp only
      refine ⟨by simpa using he, ?_⟩
      rw [(fill_spec _ _).1, fill_code, hc]
      by_cases hn : x.ins.op = Op.nop.toByte
      · rw [if_neg (by simpa using hn)]
        obtain ⟨d1, d2⟩ := discard_same s x
        have hst' : stream { discardRel s x with
            table := rest.filter fun y => y.ins.op ≠ Op.nop.toByte } =
            ops (rest.filter fun y => y.ins.op ≠ Op.nop.toByte) ++ s.input := by
          unfold stream; show _ ++ (discardRel s x).input = _; rw [d2]
        rw [hst', effective_append, effective_kept, effective_append, effective_drop (nop_effective hn)]
        show effective (discardRel s x).out ++ _ = _
        rw [d1]
      · rw [if_pos hn]
        have d1 := emit_out s x
        have d2 := emit_input s x
        have hst' : stream { emit s x with
            table := rest.filter fun y => y.ins.op ≠ Op.nop.toByte } =
            ops (rest.filter fun y => y.ins.op ≠ Op.nop.toByte) ++ s.input := by
          unfold stream; show _ ++ (emit s x).input = _; rw [d2]
        rw [hst', effective_append, effective_kept]
        show effective (emit s x).out ++ _ = _
        rw [d1, ← effective_append, List.append_assoc, List.singleton_append]

/-- The window over a whole program. -/
theorem stringAdvance_cut {prog : List OpType} : ∀ (fuel : Nat) (s s' : Pass), PassOk prog s →
    DropDup (effective (code prog)) (effective (s.out ++ code (stream s))) →
    advance stringRound fuel s = .ok s' → ∃ init e, s'.out = init ++ [e] ∧
      e.op = Op.end_.toByte ∧ DropDup (effective (code prog)) (effective init) := by
  intro fuel
  induction fuel with
  | zero => intro s s' _ _ h; cases h
  | succ fuel ih =>
    intro s s' hs hd h
    unfold advance at h
    rw [Res.bind_eq_ok] at h
    obtain ⟨t, ht, h⟩ := h
    have hc := settle_chg stringRound_ok fuel s.table t (Nat.le_of_eq hs.len) ht
    have hs' := passOk_chg hs hc
    have hcut := stringSettle_cut s.input fuel s.table t ht
    have hd' : DropDup (effective (code prog)) (effective (s.out ++ code (stream { s with table := t }))) := by
      refine DropDup.trans hd ?_
      rw [effective_append, effective_append]
      exact DropDup.pre hcut _
    have hne : ({ s with table := t } : Pass).table ≠ [] := by
      intro e; have := hs'.len; rw [e] at this; cases this
    rcases effective_update _ hne with ⟨u1, u2⟩ | ⟨u1, e, u2, u3, u4⟩
    · dsimp only at h
      rw [u1] at h
      rcases passOk_update hs' with ⟨_, v2, _⟩ | ⟨v1, _⟩
      · refine ih _ _ v2 ?_ h
        rw [u2]; exact hd'
      · rw [u1] at v1; cases v1
    · dsimp only at h
      rw [u1] at h
      cases h
      refine ⟨s.out, e, u3, u2, ?_⟩
      rw [u4, List.append_nil] at hd'
      exact hd'

theorem stringPass_cut {fuel : Nat} {prog : List OpType} {rels : List Reloc}
    {r : List OpType × List Reloc × Bool} (hlab : ∃ y ∈ code prog, y.op = Op.label.toByte)
    (h : pass stringRound fuel prog rels = .ok r) : ∃ init e, r.1 = init ++ [e] ∧
      e.op = Op.end_.toByte ∧ DropDup (effective (code prog)) (effective init) := by
  unfold pass at h
  rw [Res.bind_eq_ok] at h
  obtain ⟨s, h1, h⟩ := h
  rw [Res.bind_eq_ok] at h
  obtain ⟨s', h2, h⟩ := h
  cases h
  have hs := setup_ok hlab h1
  refine stringAdvance_cut fuel s s' hs ?_ h2
  unfold setup at h1
  rw [Res.bind_eq_ok] at h1
  obtain ⟨s₀, h1, h3⟩ := h1
  cases h3
  obtain ⟨k1, k2, k3, k4⟩ := skipLead_spec (prog := prog) fuel _ s₀ rfl (by simp) hlab
    (fun y hy => out_same (List.mem_cons_of_mem _ (by simpa using hy))) rfl h1
  have hst : stream s₀ = s₀.input := by unfold stream; rw [k1]; rfl
  rw [fill_code, (fill_spec _ _).1, hst, k4]
  exact .refl _

/-- Without a constant copied directly nothing is left out. -/
theorem DropDup.same {l l' : List OpType} (h : DropDup l l')
    (hn : ∀ a b : OpType, [a, b] <:+: l → a.op = Op.lac.toByte → ¬ isDup b) : l' = l := by
  induction h with
  | refl => rfl
  | read pre post a b c d l ha hb hc hd hd' _ ih =>
    exact absurd hb (hn a b ⟨pre, c :: d :: post, by simp⟩ ha)
  | copy pre post a b c d e l ha hb hc hd he he' _ ih =>
    exact absurd hb (hn a b ⟨pre, c :: d :: e :: post, by simp⟩ ha)

end Pas.Popt
