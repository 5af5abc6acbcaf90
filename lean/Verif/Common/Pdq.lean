import Verif.Common.Sort

/-!
# `sort.Slice`

The algorithm of Go's standard library (sort/slice.go, sort/zsortfunc.go, Go 1.19 and later): a pattern-defeating quicksort.  The library is not part of /repo and its source is not in
this sandbox; it is modelled here because the order of elements that are equal under `less`, which its documentation leaves open, is visible in what the generators write.  Two of its
branches are not modelled: the shuffle after an unbalanced partition (`breakPatterns_func`) and the fall back to heap sort.  Runs that reach one of them have the result `none`.

The theorems at the end say what the rest of the model assumes of `sort.Slice`: up to twelve elements it is the stable sort (`slice_small`), and a slice of any length that is already
sorted is left alone (`slice_sorted`).  `slice_unstable` shows that otherwise equal elements change places.
-/
namespace Verif.Pdq

variable {α : Type}

/-- `less(i, j)` for positions of the slice. -/
def lessAt (less : α → α → Bool) (d : List α) (i j : Nat) : Bool :=
  match d[i]?, d[j]? with
  | some x, some y => less x y
  | _, _ => false

/-- `Swap(i, j)`. -/
def swap (d : List α) (i j : Nat) : List α :=
  match d[i]?, d[j]? with
  | some x, some y => (d.set i y).set j x
  | _, _ => d

/-- The inner loop of `insertionSort_func`: the element at `j` moves to the left as long as it is less than its neighbour. -/
def bubble (less : α → α → Bool) (a : Nat) : Nat → List α → List α
  | 0, d => d
  | j + 1, d => if a < j + 1 ∧ lessAt less d (j + 1) j then bubble less a j (swap d (j + 1) j) else d

/-- `insertionSort_func` on `[a, a + n + 1)`, from its `i`-th element. -/
def insertionFrom (less : α → α → Bool) (a : Nat) : Nat → Nat → List α → List α
  | 0, _, d => d
  | n + 1, i, d => insertionFrom less a n (i + 1) (bubble less a i d)

/-- `insertionSort_func` on `[a, b)`. -/
def insertionSort (less : α → α → Bool) (a b : Nat) (d : List α) : List α := insertionFrom less a (b - (a + 1)) (a + 1) d

/-- `order2_func`: the two positions in order, and the number of swaps. -/
def order2 (less : α → α → Bool) (d : List α) (a b n : Nat) : Nat × Nat × Nat := if lessAt less d b a then (b, a, n + 1) else (a, b, n)

/-- `median_func`. -/
def median (less : α → α → Bool) (d : List α) (a b c n : Nat) : Nat × Nat :=
  let x := order2 less d a b n
  let y := order2 less d x.2.1 c x.2.2
  let z := order2 less d x.1 y.1 y.2.2
  (z.2.1, z.2.2)

/-- `medianAdjacent_func`. -/
def medianAdjacent (less : α → α → Bool) (d : List α) (a n : Nat) : Nat × Nat := median less d (a - 1) a (a + 1) n

/-- `choosePivot_func`: the pivot and the number of swaps (0 is the increasing hint, 12 the decreasing one). -/
def choosePivot (less : α → α → Bool) (d : List α) (a b : Nat) : Nat × Nat :=
  let l := b - a
  let i := a + l / 4 * 1
  let j := a + l / 4 * 2
  let k := a + l / 4 * 3
  if 8 ≤ l then
    if 50 ≤ l then
      let i' := medianAdjacent less d i 0
      let j' := medianAdjacent less d j i'.2
      let k' := medianAdjacent less d k j'.2
      median less d i'.1 j'.1 k'.1 k'.2
    else median less d i j k 0
  else (j, 0)

/-- `reverseRange_func` on `[i, j]`. -/
def reverseRange : Nat → Nat → Nat → List α → List α
  | 0, _, _, d => d
  | f + 1, i, j, d => if i < j then reverseRange f (i + 1) (j - 1) (swap d i j) else d

/-- The first position of `[i, b)` whose element is less than its left neighbour, or `b`. -/
def firstDescent (less : α → α → Bool) (d : List α) : Nat → Nat → Nat → Nat
  | 0, i, _ => i
  | f + 1, i, b => if i < b ∧ ¬ lessAt less d i (i - 1) then firstDescent less d f (i + 1) b else i

/-- The loop of `partialInsertionSort_func` that moves the smaller element to the left. -/
def shiftLeft (less : α → α → Bool) : Nat → List α → List α
  | 0, d => d
  | j + 1, d => if lessAt less d (j + 1) j then shiftLeft less j (swap d (j + 1) j) else d

/-- The loop of `partialInsertionSort_func` that moves the greater element to the right. -/
def shiftRight (less : α → α → Bool) : Nat → Nat → Nat → List α → List α
  | 0, _, _, d => d
  | f + 1, j, b, d => if j < b ∧ lessAt less d j (j - 1) then shiftRight less f (j + 1) b (swap d j (j - 1)) else d

/-- `partialInsertionSort_func`: whether the slice is sorted now, and the slice. -/
def partialInsertion (less : α → α → Bool) (a b : Nat) : Nat → Nat → List α → Bool × List α
  | 0, _, d => (false, d)
  | steps + 1, i, d =>
    let i := firstDescent less d (b - i) i b
    if i = b then (true, d)
    else if b - a < 50 then (false, d)
    else
      let d := swap d i (i - 1)
      let d := if 2 ≤ i - a then shiftLeft less (i - 1) d else d
      let d := if 2 ≤ b - i then shiftRight less (b - i) (i + 1) b d else d
      partialInsertion less a b steps i d

/-- `for i <= j && p(i) { i++ }`. -/
def up (p : Nat → Bool) : Nat → Nat → Nat → Nat
  | 0, i, _ => i
  | f + 1, i, j => if i ≤ j ∧ p i then up p f (i + 1) j else i

/-- `for i <= j && p(j) { j-- }`. -/
def down (p : Nat → Bool) : Nat → Nat → Nat → Nat
  | 0, _, j => j
  | f + 1, i, j => if i ≤ j ∧ p j then down p f i (j - 1) else j

/-- The loop of `partition_func`; the number counts the exchanges. -/
def partLoop (less : α → α → Bool) (a : Nat) : Nat → Nat → Nat → Nat → List α → Nat × Nat × List α
  | 0, _, j, n, d => (j, n, d)
  | f + 1, i, j, n, d =>
    let i := up (fun i => lessAt less d i a) d.length i j
    let j := down (fun j => !lessAt less d j a) d.length i j
    if j < i then (j, n, d) else partLoop less a f (i + 1) (j - 1) (n + 1) (swap d i j)

/-- `partition_func`: the position of the pivot, whether nothing had to be exchanged, and the slice. -/
def partition (less : α → α → Bool) (a b pivot : Nat) (d : List α) : Nat × Bool × List α :=
  let d := swap d a pivot
  let r := partLoop less a d.length (a + 1) (b - 1) 0 d
  (r.1, r.2.1 = 0, swap r.2.2 r.1 a)

/-- The loop of `partitionEqual_func`. -/
def equalLoop (less : α → α → Bool) (a : Nat) : Nat → Nat → Nat → List α → Nat × List α
  | 0, i, _, d => (i, d)
  | f + 1, i, j, d =>
    let i := up (fun i => !lessAt less d a i) d.length i j
    let j := down (fun j => lessAt less d a j) d.length i j
    if j < i then (i, d) else equalLoop less a f (i + 1) (j - 1) (swap d i j)

/-- `partitionEqual_func`. -/
def partitionEqual (less : α → α → Bool) (a b pivot : Nat) (d : List α) : Nat × List α :=
  let d := swap d a pivot
  equalLoop less a d.length (a + 1) (b - 1) d

/-- `pdqsort_func` on `[a, b)`; the first number bounds the rounds of the loop and the depth of the recursion. -/
def pdqsort (less : α → α → Bool) : Nat → Nat → Nat → Nat → Bool → Bool → List α → Option (List α)
  | 0, _, _, _, _, _, _ => none
  | f + 1, a, b, limit, wasBalanced, wasPartitioned, d =>
    if b - a ≤ 12 then some (insertionSort less a b d)
    else if limit = 0 then none
    else if wasBalanced = false then none
    else
      let c := choosePivot less d a b
      let d' := if c.2 = 12 then reverseRange d.length a (b - 1) d else d
      let pivot := if c.2 = 12 then (b - 1) - (c.1 - a) else c.1
      let p := if wasBalanced ∧ wasPartitioned ∧ (c.2 = 0 ∨ c.2 = 12) then partialInsertion less a b 5 (a + 1) d' else (false, d')
      if p.1 then some p.2
      else if 0 < a ∧ ¬ lessAt less p.2 (a - 1) pivot then
        let e := partitionEqual less a b pivot p.2
        pdqsort less f e.1 b limit wasBalanced wasPartitioned e.2
      else
        let q := partition less a b pivot p.2
        let mid := q.1
        if mid - a < b - mid then
          match pdqsort less f a mid limit true true q.2.2 with
          | none => none
          | some d => pdqsort less f (mid + 1) b limit (decide ((b - a) / 8 ≤ mid - a)) q.2.1 d
        else
          match pdqsort less f (mid + 1) b limit true true q.2.2 with
          | none => none
          | some d => pdqsort less f a mid limit (decide ((b - a) / 8 ≤ b - mid)) q.2.1 d

/-- `sort.Slice` with the comparison `less`; `Nat.log2 n + 1` is the bit length of `n`. -/
def slice (less : α → α → Bool) (l : List α) : Option (List α) :=
  pdqsort less (l.length + 1) 0 l.length (if l.length = 0 then 0 else Nat.log2 l.length + 1) true true l

/-! ## A sorted slice is left alone -/

section Sorted
variable {less : α → α → Bool} {l : List α}

theorem lessAt_sorted (h : l.Pairwise fun x y => less y x = false) {i j : Nat} (hij : i < j) : lessAt less l j i = false := by
  unfold lessAt
  split
  · rename_i x y hx hy
    obtain ⟨hj, rfl⟩ := List.getElem?_eq_some_iff.1 hx
    obtain ⟨hi, rfl⟩ := List.getElem?_eq_some_iff.1 hy
    exact List.pairwise_iff_getElem.1 h i j hi hj hij
  · rfl

theorem median_sorted (h : l.Pairwise fun x y => less y x = false) {a b c n : Nat} (hab : a < b) (hbc : b < c) : median less l a b c n = (b, n) := by
  have e1 : order2 less l a b n = (a, b, n) := by unfold order2; rw [if_neg (by rw [lessAt_sorted h hab]; exact Bool.false_ne_true)]
  have e2 : order2 less l b c n = (b, c, n) := by unfold order2; rw [if_neg (by rw [lessAt_sorted h hbc]; exact Bool.false_ne_true)]
  unfold median
  simp only [e1, e2]

theorem choosePivot_sorted (h : l.Pairwise fun x y => less y x = false) {a b : Nat} : (choosePivot less l a b).2 = 0 := by
  unfold choosePivot
  simp only
  split
  · split
    · rw [show ∀ x n, 0 < x → medianAdjacent less l x n = (x, n) from fun x n hx => median_sorted h (by omega) (by omega)]
      · rw [show ∀ x n, 0 < x → medianAdjacent less l x n = (x, n) from fun x n hx => median_sorted h (by omega) (by omega)]
        · rw [show ∀ x n, 0 < x → medianAdjacent less l x n = (x, n) from fun x n hx => median_sorted h (by omega) (by omega)]
          · rw [median_sorted h (by omega) (by omega)]
          · omega
        · omega
      · omega
    · rw [median_sorted h (by omega) (by omega)]
  · rfl

theorem firstDescent_sorted (h : l.Pairwise fun x y => less y x = false) : ∀ (f i b : Nat), 0 < i → i ≤ b → b - i ≤ f → firstDescent less l f i b = b
  | 0, i, b, _, h1, h2 => by unfold firstDescent; omega
  | f + 1, i, b, h0, h1, h2 => by
    unfold firstDescent
    split
    · exact firstDescent_sorted h f (i + 1) b (by omega) (by omega) (by omega)
    · rename_i hn
      by_cases hib : i < b
      · exact absurd ⟨hib, by rw [lessAt_sorted h (by omega)]; exact Bool.false_ne_true⟩ hn
      · omega

theorem bubble_sorted (h : l.Pairwise fun x y => less y x = false) (a j : Nat) : bubble less a j l = l := by
  cases j with
  | zero => rfl
  | succ j => unfold bubble; rw [if_neg]; rintro ⟨_, h'⟩; rw [lessAt_sorted h (Nat.lt_succ_self j)] at h'; cases h'

theorem insertionFrom_sorted (h : l.Pairwise fun x y => less y x = false) (a : Nat) : ∀ n i, insertionFrom less a n i l = l
  | 0, _ => rfl
  | n + 1, i => by unfold insertionFrom; rw [bubble_sorted h]; exact insertionFrom_sorted h a n (i + 1)

/-- `sort.Slice` leaves a slice alone that is sorted already, whatever its length. -/
theorem slice_sorted (h : l.Pairwise fun x y => less y x = false) : slice less l = some l := by
  unfold slice pdqsort
  split
  · unfold insertionSort; rw [insertionFrom_sorted h]
  · rename_i hl
    rw [if_neg (by split <;> omega), if_neg (by decide)]
    simp only [choosePivot_sorted h]
    have : partialInsertion less 0 l.length 5 (0 + 1) l = (true, l) := by
      unfold partialInsertion
      rw [firstDescent_sorted h _ _ _ (by omega) (by omega) (Nat.le_refl _), if_pos rfl]
    simp [this]

end Sorted

/-! ## Up to twelve elements `sort.Slice` is the stable sort -/

section Small
variable {less : α → α → Bool}

theorem swap_at (r : List α) (y x : α) (rest : List α) (n : Nat) (hn : n = r.length) : swap (r ++ y :: x :: rest) (n + 1) n = r ++ x :: y :: rest := by
  subst hn
  have h1 : (r ++ y :: x :: rest)[r.length + 1]? = some x := by rw [List.getElem?_append_right (by omega)]; simp
  have h2 : (r ++ y :: x :: rest)[r.length]? = some y := by rw [List.getElem?_append_right (by omega)]; simp
  unfold swap
  rw [h1, h2]
  simp

theorem lessAt_at (r : List α) (y x : α) (rest : List α) (n : Nat) (hn : n = r.length) : lessAt less (r ++ y :: x :: rest) (n + 1) n = less x y := by
  subst hn
  have h1 : (r ++ y :: x :: rest)[r.length + 1]? = some x := by rw [List.getElem?_append_right (by omega)]; simp
  have h2 : (r ++ y :: x :: rest)[r.length]? = some y := by rw [List.getElem?_append_right (by omega)]; simp
  unfold lessAt
  rw [h1, h2]

/-- The inner loop inserts the element into the part on its left, seen from the right. -/
theorem bubble_eq (x : α) : ∀ (r rest : List α), bubble less 0 r.length (r.reverse ++ x :: rest) = (insertBy (fun a b => !less a b) x r).reverse ++ rest
  | [], rest => rfl
  | y :: r, rest => by
    rw [List.length_cons]
    unfold bubble
    rw [List.reverse_cons, List.append_assoc, List.singleton_append, lessAt_at r.reverse y x rest _ (by simp)]
    unfold insertBy
    cases hl : less x y
    · simp
    · rw [if_pos ⟨by omega, rfl⟩, swap_at r.reverse y x rest _ (by simp), bubble_eq x r (y :: rest)]
      simp

theorem insertionFrom_eq : ∀ (rest r : List α) (n i : Nat), n = rest.length → i = r.length →
    insertionFrom less 0 n i (r.reverse ++ rest) = (rest.foldl (fun r x => insertBy (fun a b => !less a b) x r) r).reverse
  | [], r, n, i, hn, _ => by subst hn; unfold insertionFrom; simp
  | x :: rest, r, n, i, hn, hi => by
    subst hn hi
    rw [List.length_cons]
    unfold insertionFrom
    rw [bubble_eq, insertionFrom_eq rest _ rest.length (r.length + 1) rfl (by rw [(insertBy_perm _ _ _).length_eq]; rfl)]
    rfl

/-- Insertion behind the elements that are equal. -/
def insertEnd (less : α → α → Bool) (x : α) : List α → List α
  | [] => [x]
  | y :: s => if less x y then x :: y :: s else y :: insertEnd less x s

theorem insertBy_snoc {le : α → α → Bool} {x y : α} (h : le x y = true) : ∀ r : List α, insertBy le x (r ++ [y]) = insertBy le x r ++ [y]
  | [] => by simp [insertBy, h]
  | z :: r => by
    simp only [List.cons_append, insertBy]
    split
    · rfl
    · rw [insertBy_snoc h r]; rfl

theorem insertBy_last {le : α → α → Bool} {x : α} : ∀ r : List α, (∀ z ∈ r, le x z = false) → insertBy le x r = r ++ [x]
  | [], _ => rfl
  | z :: r, h => by
    simp only [insertBy, h z (List.mem_cons_self ..)]
    rw [insertBy_last r fun w hw => h w (List.mem_cons_of_mem _ hw)]
    rfl

/-- Seen from the right, on a sorted list. -/
theorem insertEnd_eq (hcotrans : ∀ a b c, less a c = true → less a b = true ∨ less b c = true) (x : α) : ∀ s : List α, s.Pairwise (fun p q => less q p = false) →
    (insertBy (fun p q => !less p q) x s.reverse).reverse = insertEnd less x s
  | [], _ => rfl
  | y :: s, h => by
    rw [List.pairwise_cons] at h
    rw [List.reverse_cons]
    unfold insertEnd
    cases hl : less x y
    · rw [insertBy_snoc (by rw [hl]; rfl), List.reverse_append, insertEnd_eq hcotrans x s h.2]; rfl
    · rw [insertBy_last]
      · simp
      · intro z hz
        rw [List.mem_append, List.mem_reverse, List.mem_singleton] at hz
        rcases hz with hz | rfl
        · rcases hcotrans x z y hl with h' | h'
          · rw [h']; rfl
          · rw [h.1 z hz] at h'; cases h'
        · rw [hl]; rfl

/-- Insertion before and insertion behind the elements that are equal commute. -/
theorem insert_comm (hasym : ∀ a b, less a b = true → less b a = false) (hcotrans : ∀ a b c, less a c = true → less a b = true ∨ less b c = true) (a x : α) :
    ∀ s : List α, insertEnd less x (insertBy (fun p q => !less q p) a s) = insertBy (fun p q => !less q p) a (insertEnd less x s)
  | [] => by cases h : less x a <;> simp [insertEnd, insertBy, h]
  | y :: s => by
    have ih := insert_comm hasym hcotrans a x s
    cases hya : less y a <;> cases hxy : less x y
    · cases hxa : less x a
      · simp [insertEnd, insertBy, hya, hxy, hxa]
      · rcases hcotrans x y a hxa with h | h
        · rw [hxy] at h; cases h
        · rw [hya] at h; cases h
    · cases hxa : less x a <;> simp [insertEnd, insertBy, hya, hxy, hxa]
    · simp [insertEnd, insertBy, hya, hxy, ih]
    · have hxa : less x a = true := by
        rcases hcotrans y x a hya with h | h
        · rw [hasym x y hxy] at h; cases h
        · exact h
      simp [insertEnd, insertBy, hya, hxy, hxa]

theorem sortBy_snoc (hasym : ∀ a b, less a b = true → less b a = false) (hcotrans : ∀ a b c, less a c = true → less a b = true ∨ less b c = true) (x : α) :
    ∀ l : List α, sortBy (fun p q => !less q p) (l ++ [x]) = insertEnd less x (sortBy (fun p q => !less q p) l)
  | [] => rfl
  | a :: l => by
    simp only [List.cons_append, sortBy]
    rw [sortBy_snoc hasym hcotrans x l, insert_comm hasym hcotrans]

theorem sortBy_sorted (hasym : ∀ a b, less a b = true → less b a = false) (hcotrans : ∀ a b c, less a c = true → less a b = true ∨ less b c = true) (l : List α) :
    (sortBy (fun p q => !less q p) l).Pairwise fun p q => less q p = false := by
  refine List.Pairwise.imp (fun h => by simpa using h) (sortBy_pairwise (le := fun p q => !less q p) ?_ ?_ l)
  · intro a b c h1 h2
    simp only [Bool.not_eq_true'] at h1 h2 ⊢
    cases h : less c a
    · rfl
    · rcases hcotrans c b a h with h | h
      · rw [h2] at h; cases h
      · rw [h1] at h; cases h
  · intro a b
    cases h : less b a
    · exact .inl rfl
    · right; simp [hasym b a h]

theorem sortBy_reverse (hasym : ∀ a b, less a b = true → less b a = false) (hcotrans : ∀ a b c, less a c = true → less a b = true ∨ less b c = true) :
    ∀ m : List α, sortBy (fun p q => !less q p) m.reverse = (sortBy (fun p q => !less p q) m).reverse
  | [] => rfl
  | x :: m => by
    have hs := sortBy_sorted hasym hcotrans m.reverse
    rw [List.reverse_cons, sortBy_snoc hasym hcotrans, ← insertEnd_eq hcotrans x _ hs, sortBy_reverse hasym hcotrans m, List.reverse_reverse]
    rfl

/-- Up to twelve elements `sort.Slice` is the stable sort. -/
theorem slice_small (hasym : ∀ a b, less a b = true → less b a = false) (hcotrans : ∀ a b c, less a c = true → less a b = true ∨ less b c = true) (l : List α) (hl : l.length ≤ 12) :
    slice less l = some (sortBy (fun p q => !less q p) l) := by
  unfold slice pdqsort
  rw [if_pos (by omega)]
  unfold insertionSort
  cases l with
  | nil => rfl
  | cons a l =>
    have := insertionFrom_eq (less := less) l [a] l.length 1 rfl rfl
    simp only [List.reverse_cons, List.reverse_nil, List.nil_append, List.singleton_append] at this
    rw [show (a :: l).length - (0 + 1) = l.length from by simp, this, show l.foldl (fun r x => insertBy (fun a b => !less a b) x r) [a] = (a :: l).foldl (fun r x => insertBy (fun a b => !less a b) x r) [] from rfl]
    have hf : ∀ m : List α, m.foldl (fun r x => insertBy (fun a b => !less a b) x r) [] = sortBy (fun a b => !less a b) m.reverse := by
      intro m
      rw [List.foldl_eq_foldr_reverse]
      generalize m.reverse = m
      induction m with
      | nil => rfl
      | cons x m ih => rw [List.foldr_cons, ih]; rfl
    rw [hf, ← sortBy_reverse hasym hcotrans, List.reverse_reverse]

end Small

/-- Of fourteen elements, thirteen of which are equal, the equal ones change places. -/
theorem slice_unstable : slice (fun a b : Nat × Nat => a.1 < b.1) [(10, 1), (10, 2), (10, 3), (10, 4), (10, 5), (10, 6), (10, 7), (10, 8), (10, 9), (10, 10), (10, 11), (10, 12), (10, 13), (9, 14)] =
    some [(9, 14), (10, 7), (10, 3), (10, 4), (10, 5), (10, 6), (10, 1), (10, 8), (10, 9), (10, 10), (10, 11), (10, 12), (10, 13), (10, 2)] := by
  decide +kernel

end Verif.Pdq
