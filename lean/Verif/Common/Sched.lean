/-!
# Adversarial schedules for Go map iteration

Go's `for k, v := range m` over a map visits the entries in an unspecified,
randomised order.  A `Sched` is an arbitrary choice of such orders: at iteration
site `n`, faced with the entries `l`, it may visit them in any permutation of `l`.
Theorems about order independence quantify over all schedules.

(There is no single Go source line for this file: it models the language rule
"The iteration order over maps is not specified" used by every `range` over a map.)
-/
namespace Verif

/-- An arbitrary resolution of map iteration order. -/
structure Sched where
  /-- the order in which the entries `l` are visited at site `n` -/
  order : {α : Type} → Nat → List α → List α
  /-- every entry is visited exactly once -/
  perm : ∀ {α : Type} (n : Nat) (l : List α), (order n l).Perm l

namespace Sched

/-- The schedule that visits entries in the order in which they are stored. -/
def fifo : Sched where
  order := fun _ l => l
  perm := fun _ _ => List.Perm.refl _

/-- The schedule that visits entries in the reverse of the order in which they are stored. -/
def lifo : Sched where
  order := fun _ l => l.reverse
  perm := fun _ l => List.reverse_perm l

/-- The schedule that reverses at site `k` only. -/
def revAt (k : Nat) : Sched where
  order := fun n l => if n = k then l.reverse else l
  perm := fun n l => by
    by_cases h : n = k
    · simp only [h, if_true]; exact List.reverse_perm l
    · simp only [h, if_false]; exact List.Perm.refl _

theorem mem_order (σ : Sched) {α : Type} (n : Nat) (l : List α) (a : α) :
    a ∈ σ.order n l ↔ a ∈ l := (σ.perm n l).mem_iff

theorem nodup_order (σ : Sched) {α : Type} (n : Nat) (l : List α) :
    (σ.order n l).Nodup ↔ l.Nodup := (σ.perm n l).nodup_iff

theorem length_order (σ : Sched) {α : Type} (n : Nat) (l : List α) :
    (σ.order n l).length = l.length := (σ.perm n l).length_eq

@[simp] theorem order_nil (σ : Sched) {α : Type} (n : Nat) : σ.order n ([] : List α) = [] :=
  List.Perm.eq_nil (σ.perm n [])

end Sched
end Verif
