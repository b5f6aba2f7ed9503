import Verif.Thread.Model

/-! # The use of a thread object, in terms of the events alone -/

namespace QM.Thread

/-- The owner has called `start` and `wait` has not returned since. -/
def open_ : List Ev → Prop
  | [] => False
  | .started _ :: _ => True
  | .waited :: _ => False
  | _ :: h => open_ h

/-- The owner starts the object again only after waiting for it. -/
def OneAtATime : List Ev → Prop
  | [] => True
  | .started _ :: h => ¬ open_ h ∧ OneAtATime h
  | _ :: h => OneAtATime h

/-- The owner waits before it destroys the object. -/
def WaitsFirst : List Ev → Prop
  | [] => True
  | .callDestroy :: h => ¬ open_ h ∧ WaitsFirst h
  | _ :: h => WaitsFirst h

end QM.Thread
