import Verif.Markers.Shipped
import Verif.Markers.RegistrySpec
/-!
# Facts about the table of markers, computed
-/
namespace Verif.Markers
open Spec

/-- The names of the arguments of a marker. -/
def Marker.arguments (m : Marker) : List Str := (m.define.map fun d => d.payload.fields.map (·.1)).getD []

/-- All markers, without those of `schemapatch`, which are those of `crd`. -/
def Shipped.table : List Marker := Shipped.allDefinitions ++ Shipped.rbacMarkers ++ Shipped.objectMarkers ++ Shipped.applyMarkers ++ Shipped.webhookMarkers

theorem Shipped.mem_table {g : String} {ms : List Marker} (h : (g, ms) ∈ Shipped.registers) {m : Marker} (hm : m ∈ ms) : m ∈ Shipped.table := by
  unfold Shipped.registers at h
  unfold Shipped.table
  simp only [List.mem_cons, List.not_mem_nil, or_false, Prod.mk.injEq] at h
  simp only [List.mem_append]
  rcases h with ⟨_, rfl⟩ | ⟨_, rfl⟩ | ⟨_, rfl⟩ | ⟨_, rfl⟩ | ⟨_, rfl⟩ | ⟨_, rfl⟩ <;> simp [hm]

def checkOne (m : Marker) : Bool :=
  m.define.isSome && !m.name.contains '=' && decide (Valid m.target) && m.arguments.all fun a => a == [] || (!a.contains '=' && !a.contains ':')

set_option maxRecDepth 100000 in
theorem checkOne_table : (Shipped.table.all checkOne) = true := by decide +kernel

set_option maxRecDepth 100000 in
theorem unique_table : (Shipped.table.all fun m => Shipped.table.all fun m' => decide (m.name = m'.name → m.target = m'.target → m = m')) = true := by decide +kernel

set_option maxRecDepth 100000 in
theorem args_table : (Shipped.table.all fun m => m.arguments.all fun a => a == [] || Shipped.table.all fun m' => decide (m'.name ≠ m.name ++ ':' :: a)) = true := by decide +kernel

end Verif.Markers
