import Verif.Markers.Args
import Verif.Markers.ArgSpec
/-!
# The fields are the arguments
-/
namespace Verif.Markers.Args
open Verif Verif.Markers

theorem get_of_mem {vals : List (Str × Value)} (hn : (vals.map (·.1)).Nodup) {n : Str} {v : Value} (h : (n, v) ∈ vals) : GoMap.get vals n = some v := (GoMap.get_eq_some hn).2 h

theorem stringsArg_eq {vals : List (Str × Value)} (hn : (vals.map (·.1)).Nodup) {n : String} {l : List String} (h : IsList vals n l) : stringsArg vals n = l := by
  unfold stringsArg
  rcases h with h | ⟨h, rfl⟩
  · rw [get_of_mem hn h]
    simp only [List.filterMap_map, Function.comp_def, String.ofList_toList]
    induction l with
    | nil => rfl
    | cons a l ih => simp
  · rw [GoMap.get_eq_none.2 h]

theorem pointerArg_eq {vals : List (Str × Value)} (hn : (vals.map (·.1)).Nodup) {n : String} {o : Option String} (h : IsPointer vals n o) : pointerArg vals n = o := by
  unfold pointerArg
  cases o with
  | some s => rw [get_of_mem hn h]; simp
  | none => rw [GoMap.get_eq_none.2 h]

theorem stringArg_eq {vals : List (Str × Value)} (hn : (vals.map (·.1)).Nodup) {n s : String} (h : IsText vals n s) : stringArg vals n = s := by
  unfold stringArg
  rcases h with h | ⟨h, rfl⟩
  · rw [pointerArg_eq hn (o := some s) h]; rfl
  · rw [pointerArg_eq hn (o := none) h]; rfl

theorem intArg_eq {vals : List (Str × Value)} (hn : (vals.map (·.1)).Nodup) {n : String} {o : Option Int} (h : IsNumber vals n o) : intArg vals n = o := by
  unfold intArg
  cases o with
  | some z => rw [get_of_mem hn h]
  | none => rw [GoMap.get_eq_none.2 h]

theorem flagArg_eq {vals : List (Str × Value)} (hn : (vals.map (·.1)).Nodup) {n : String} {o : Option Bool} (h : IsFlag vals n o) : flagArg vals n = o := by
  unfold flagArg
  cases o with
  | some b => rw [get_of_mem hn h]
  | none => rw [GoMap.get_eq_none.2 h]

theorem boolArg_eq {vals : List (Str × Value)} (hn : (vals.map (·.1)).Nodup) {n : String} {b : Bool} (h : (n.toList, Value.bool b) ∈ vals) : boolArg vals n = b := by
  unfold boolArg
  rw [get_of_mem hn h]

end Verif.Markers.Args
