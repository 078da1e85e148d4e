import Verif.Spec.Nested
import Verif.Model.NestedShow
/-!
# What is written for nested vectors and linked lists

Only the names of the types (`Printed`) are shared with the model.
-/
namespace Verif.Spec.Nested
open Verif Verif.Model.Nested
open Verif.Spec.Vector (Var joinSeq)

variable {α : Type}

/-- The name, and the elements in brackets, separated by comma and blank. -/
def bracketed (name : String) (ss : List String) : String := name ++ " [" ++ joinSeq ss ++ "]"

def listName (dbl : Bool) : String := if dbl then "List" else "ForwardList"

/-- What is written for an object; nothing can be said if there is a linked list in it, at any depth, that was moved from. -/
def written (shw : α → String) : (c : Printed α) → Val c.shape → Option String
  | .values _ => fun (v : Var α) => some (bracketed "Vec" (v.xs.map shw))
  | .lists cfg => fun (v : Spec.LL.Var α) => v.items.map fun xs => bracketed (listName cfg.dbl) (xs.map shw)
  | .vector _ c => fun (v : Var (Val c.shape)) => (v.xs.mapM (written shw c)).map (bracketed "Vec")
  | .linked cfg c => fun (v : Spec.LL.Var (Val c.shape)) => v.items.bind fun xs => (xs.mapM (written shw c)).map (bracketed (listName cfg.dbl))

/-- No linked list in the object, and not the object itself, was moved from. -/
def Intact : (c : Printed α) → Val c.shape → Prop
  | .values _ => fun _ => True
  | .lists _ => fun (v : Spec.LL.Var α) => v.items ≠ none
  | .vector _ c => fun (v : Var (Val c.shape)) => ∀ x ∈ v.xs, Intact c x
  | .linked _ c => fun (v : Spec.LL.Var (Val c.shape)) => ∃ xs, v.items = some xs ∧ ∀ x ∈ xs, Intact c x

end Verif.Spec.Nested
