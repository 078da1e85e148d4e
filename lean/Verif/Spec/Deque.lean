/-!
# Specification: consuming a sequence from both ends

Independent of the library: an ideal double-ended iterator over a list.
-/
namespace Verif.Spec

/-- The two requests a double-ended iterator understands. -/
inductive End where
  | front  -- `next()`
  | back   -- `prev()`
  deriving Repr, DecidableEq

/-- One request on an ideal sequence: the element handed out and what remains. -/
def take1 {α : Type u} : End → List α → Option α × List α
  | .front, xs => (xs.head?, xs.tail)
  | .back, xs => (xs.getLast?, xs.dropLast)

/-- A sequence of requests: everything handed out, and what remains. -/
def takes {α : Type u} : List End → List α → List (Option α) × List α
  | [], xs => ([], xs)
  | e :: es, xs =>
    let (r, xs') := take1 e xs
    let (rs, xs'') := takes es xs'
    (r :: rs, xs'')

/-- The elements handed out at one end. -/
def givenAt {α : Type u} (e : End) : List End → List (Option α) → List α
  | e' :: es, r :: rs => (if e' = e then r.toList else []) ++ givenAt e es rs
  | _, _ => []

/-- Sanity of the specification: whatever is handed out at the front, what remains, and what was handed out at the
back (reversed) is always the original sequence; so every element is handed out at most once, in order. -/
theorem takes_partition {α : Type u} (es : List End) (xs : List α) :
    givenAt .front es (takes es xs).1 ++ (takes es xs).2 ++ (givenAt .back es (takes es xs).1).reverse = xs := by
  induction es generalizing xs with
  | nil => simp [takes, givenAt]
  | cons e es ih =>
    cases e
    · cases xs with
      | nil => simpa [takes, take1, givenAt] using ih []
      | cons x xs => simpa [takes, take1, givenAt] using ih xs
    · cases h : xs.getLast? with
      | none =>
        have : xs = [] := by simpa using h
        subst this
        simpa [takes, take1, givenAt] using ih []
      | some y =>
        obtain ⟨ys, rfl⟩ := List.getLast?_eq_some_iff.1 h
        have := ih ys
        simp [takes, take1, givenAt]
        rw [← List.append_assoc, ← List.append_assoc]
        simp at this
        rw [List.append_assoc (givenAt .front es _), this]

/-- Nothing is lost: a request answers "none" only when nothing remains. -/
theorem take1_none {α : Type u} (e : End) (xs : List α) : (take1 e xs).1 = none ↔ xs = [] := by
  cases e <;> simp [take1]

end Verif.Spec
