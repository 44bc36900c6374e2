import Verif.Model.LabelTab

/-! What a caller of the label tables relies on.  Only the names of the calls come from the model. -/
namespace Pas.LabelTab

/-- The value that was given with a label first; -1 if the label was never added. -/
def firstValue (added : List (BitVec 32 × BitVec 32)) (label : BitVec 32) : Int :=
  match added.find? (fun e => e.1 == label) with
  | some e => e.2.toInt
  | none => -1

/-- What has been added to the table of defined labels, in order. -/
def defs (cs : List Call) : List (BitVec 32 × BitVec 32) :=
  cs.filterMap fun
    | .addDefined l v => some (l, v)
    | _ => none

/-- What has been added to the table of undefined labels, in order. -/
def undefs (cs : List Call) : List (BitVec 32 × BitVec 32) :=
  cs.filterMap fun
    | .addUndefined l v => some (l, v)
    | _ => none

/-- The answers to the questions among the calls `cs` after the calls `before`. -/
def answers (before : List Call) : List Call → List Int
  | [] => []
  | .pcOf l :: cs => firstValue (defs before) l :: answers (before ++ [.pcOf l]) cs
  | .symOf l :: cs => firstValue (undefs before) l :: answers (before ++ [.symOf l]) cs
  | c :: cs => answers (before ++ [c]) cs

end Pas.LabelTab
