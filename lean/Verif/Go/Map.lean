/-!
# Go maps

A Go map is represented by an association list without duplicate keys. `range` over a map visits the entries
in an order that is not specified; code that ranges over a map takes the order as a parameter.
-/
namespace Verif.GoMap

variable {κ : Type} {α : Type} [DecidableEq κ]

/-- `m[k]` with the comma-ok form -/
def get? (m : List (κ × α)) (k : κ) : Option α :=
  match m with
  | [] => none
  | (k', v) :: rest => if k' = k then some v else get? rest k

/-- `m[k] = v` -/
def set (m : List (κ × α)) (k : κ) (v : α) : List (κ × α) :=
  match m with
  | [] => [(k, v)]
  | (k', v') :: rest => if k' = k then (k, v) :: rest else (k', v') :: set rest k v

/-- `delete(m, k)` -/
def erase (m : List (κ × α)) (k : κ) : List (κ × α) :=
  match m with
  | [] => []
  | (k', v') :: rest => if k' = k then rest else (k', v') :: erase rest k

end Verif.GoMap
