import Verif.Spec.AcceptProg

/-! In a sentence of the language there is no name without a meaning. -/
namespace Pas.Accept
open Pas.Comp
open Pas.Src (Lvl)

theorem fn_tk_ident (f : Pas.Src.Fn) : f.tk ≠ .ident := by cases f <;> simp [Pas.Src.Fn.tk]

theorem form_named {l : Lvl} {ts : List Tk} {k : Kind} (h : Form checked l ts k) : Tk.ident ∉ ts := by
  refine Form.rec (motive_1 := fun _ ts _ _ => Tk.ident ∉ ts) (motive_2 := fun _ ts _ => Tk.ident ∉ ts)
    ?_ ?_ ?_ ?_ ?_ ?_ ?_ ?_ ?_ ?_ ?_ ?_ ?_ ?_ ?_ ?_ ?_ ?_ h
  · intros; simp
  · intros; simp
  · intros; simp
  · intros; simp
  · 
    intro op ts k h _ _ ih
    rcases h with rfl | rfl <;> simpa using ih
  · intro ts k _ ih; simpa using ih
  · intro f ts k r _ _ ih; simpa using ⟨(fn_tk_ident f).symm, ih⟩
  · intro a n ts _ _ ih; simpa using ih
  · intro ts k _ ih; exact ih
  · 
    intro ts ts' op k k' _ _ hR ih1 ih2
    have : op ≠ .ident := fun e => by subst e; exact hR.1
    simpa using ⟨ih1, this.symm, ih2⟩
  · intro ts k _ ih; exact ih
  · intro ts k _ _ ih; simpa using ih
  · intro ts k _ _ ih; simpa using ih
  · 
    intro ts ts' op k k' _ _ hR ih1 ih2
    have : op ≠ .ident := fun e => by subst e; exact hR
    simpa using ⟨ih1, this.symm, ih2⟩
  · intro ts k _ ih; exact ih
  · 
    intro ts ts' op k k' r _ _ hR ih1 ih2
    have : op ≠ .ident := fun e => by subst e; rcases hR.1 with h | h | h | h | h | h <;> cases h
    simpa using ⟨ih1, this.symm, ih2⟩
  · intro ts _ ih; exact ih
  · intro n ts ts' _ _ ih1 ih2; simpa using ⟨ih1, ih2⟩

theorem indices_named {n : Nat} {ts : List Tk} (h : Indices checked n ts) : Tk.ident ∉ ts := by
  match h with
  | .one h => exact form_named h
  | .more h h' => simpa using ⟨form_named h, indices_named h'⟩

theorem consts_named {k : Kind} {ts : List Tk} (h : Consts checked k ts) : Tk.ident ∉ ts := by
  induction h with
  | one h _ => cases h <;> simp
  | more h _ _ ih => cases h <;> simpa using ih

theorem item_named {ts : List Tk} (h : Item checked ts) : Tk.ident ∉ ts := by
  cases h with
  | str => simp
  | value h _ hw =>
    have : Tk.ident ∉ _ := form_named h
    cases hw with
    | none => simpa using this
    | one h1 => simpa using ⟨this, form_named h1⟩
    | two h1 h2 => simpa using ⟨this, form_named h1, form_named h2⟩

theorem items_named {ts : List Tk} (h : Items checked ts) : Tk.ident ∉ ts := by
  induction h with
  | one h => exact item_named h
  | more h _ ih => simpa using ⟨item_named h, ih⟩

theorem targets_named {ts : List Tk} (h : Targets checked ts) : Tk.ident ∉ ts := by
  induction h with
  | one _ => simp
  | more _ hs _ ih => rcases hs with rfl | rfl <;> simpa using ih

theorem actuals_named {ks : List Kind} {ts : List Tk} (h : Actuals checked ks ts) : Tk.ident ∉ ts := by
  induction h with
  | one h => exact form_named h
  | more h _ ih => simpa using ⟨form_named h, ih⟩

theorem before_named {bs : List Tk} (h : checked.before bs) : Tk.ident ∉ bs := by
  rcases h with rfl | rfl | ⟨off, rfl | rfl⟩ <;> simp

theorem stm_named {b : Bool} {ts : List Tk} (h : Stm checked b ts) : Tk.ident ∉ ts := by
  refine Stm.rec (motive_1 := fun _ ts _ => Tk.ident ∉ ts) (motive_2 := fun _ ts _ => Tk.ident ∉ ts)
    (motive_3 := fun _ _ ts _ => Tk.ident ∉ ts) ?_ ?_ ?_ ?_ ?_ ?_ ?_ ?_ ?_ ?_ ?_ ?_ ?_ ?_ ?_ ?_ ?_ ?_ ?_ ?_ ?_ ?_ ?_
    ?_ ?_ ?_ ?_ ?_ h
  · intros; simp
  · intro b ts v h; simpa using form_named h
  · intro b n is ts a hi _ h; simpa using ⟨indices_named hi, form_named h⟩
  · intro b ts _ ih; simpa using ih
  · intro b ts ss h _ ih; simpa using ⟨form_named h, ih⟩
  · intro b ts ss ss' h _ _ ih ih'; simpa using ⟨form_named h, ih, ih'⟩
  · intro b ts ss h _ ih; simpa using ⟨form_named h, ih⟩
  · intro b ts ss _ h ih; simpa using ⟨ih, form_named h⟩
  · 
    intro b v ts d ts' ss _ h hd h' _ ih
    have : d ≠ .ident := by rcases hd with rfl | rfl <;> simp
    simpa using ⟨form_named h, this.symm, form_named h', ih⟩
  · intro b ts k cs h _ ih; simpa using ⟨form_named h, ih⟩
  · simp
  · simp
  · intro b bs ts hb hi; simpa using ⟨before_named hb, items_named hi⟩
  · intro b bs ts hb hi; simpa using ⟨before_named hb, items_named hi⟩
  · simp
  · simp
  · intro b bs ts hb hi; simpa using ⟨before_named hb, targets_named hi⟩
  · intro b bs ts hb hi; simpa using ⟨before_named hb, targets_named hi⟩
  · simp
  · simp
  · intros; simp
  · intros; simp
  · intro b q ts h; simpa using actuals_named h
  · intro b ts _ ih; exact ih
  · intro b ts ts' _ _ ih ih'; simpa using ⟨ih, ih'⟩
  · intro b k ss es _ he ih; rcases he with rfl | rfl <;> simpa using ih
  · 
    intro b k cs ss es hc _ he ih
    rcases he with rfl | rfl <;> simpa using ⟨consts_named hc, ih⟩
  · intro b k cs ss rs hc _ _ ih ih'; simpa using ⟨consts_named hc, ih, ih'⟩

end Pas.Accept
