import Verif.Model.Storage
/-!
# Property C89: elements lie in their memory, aligned, and clear of everything else

A type has an alignment that is a power of two and a size that is a multiple of it.  `Granted d c addr`: address `addr`
is what `operator new` promises for the call `c`: a multiple of the alignment asked for, or of the default alignment `d`
if none was asked for.
-/
namespace Verif.Props
open Verif Verif.Model.Layout Verif.Model.Storage

def Granted (d : Nat) (c : HeapCall) (addr : Nat) : Prop := addr % c.alignedForm.getD d = 0

instance (d : Nat) (c : HeapCall) (addr : Nat) : Decidable (Granted d c addr) := inferInstanceAs (Decidable (_ = _))

structure IsType (T : CType) : Prop where
  pow : ∃ k, T.align = 2 ^ k
  mult : T.size % T.align = 0

theorem roundUp_ge (n : Nat) {a : Nat} (ha : 0 < a) : n ≤ roundUp n a := by
  unfold roundUp
  have := Nat.div_add_mod (n + a - 1) a
  have := Nat.mod_lt (n + a - 1) ha
  rw [Nat.mul_comm]; omega

theorem roundUp_mod (n a : Nat) : roundUp n a % a = 0 := by unfold roundUp; exact Nat.mul_mod_left _ _

theorem mod_of_pow {i j n : Nat} (h : 2 ^ i ≤ 2 ^ j) (hn : n % 2 ^ j = 0) : n % 2 ^ i = 0 := by
  have hij : i ≤ j := (Nat.pow_le_pow_iff_right (by decide)).1 h
  exact Nat.mod_eq_zero_of_dvd (Nat.dvd_trans (Nat.pow_dvd_pow 2 hij) (Nat.dvd_of_mod_eq_zero hn))

theorem dataOffset_eq (double : Bool) (T : CType) : dataOffset double T = roundUp (if double then 24 else 16) T.align := by
  cases double <;> rfl

theorem helper_eq (double : Bool) (T : CType) : structOf (helperMembers double T) =
    ⟨roundUp (roundUp (if double then 24 else 16) T.align + T.size) (max 8 T.align), max 8 T.align⟩ := by
  cases double
  · have : max 8 (max 8 (max T.align 1)) = max 8 T.align := by omega
    have e : maxAlign (helperMembers false T) = max 8 (max 8 (max T.align 1)) := rfl
    unfold structOf; rw [e, this]; rfl
  · have : max 8 (max 8 (max 8 (max T.align 1))) = max 8 T.align := by omega
    have e : maxAlign (helperMembers true T) = max 8 (max 8 (max 8 (max T.align 1))) := rfl
    unfold structOf; rw [e, this]; rfl

/-- What a granted request guarantees. -/
theorem granted_aligned {d : Nat} {l : Layout} {n addr : Nat} (hd : ∃ j, d = 2 ^ j) (hl : ∃ k, l.align = 2 ^ k)
    (hg : Granted d (allocateCall d l n) addr) : addr % l.align = 0 := by
  obtain ⟨j, rfl⟩ := hd
  obtain ⟨k, hk⟩ := hl
  unfold Granted allocateCall at hg
  by_cases h : l.align > 2 ^ j
  · rw [if_pos h] at hg; exact hg
  · rw [if_neg h] at hg
    rw [hk] at h ⊢
    exact mod_of_pow (by omega) hg

/-- **C89, lists.** For every element type, both kinds of list, and every address the allocator may give to a node: the
node's links are aligned, at the same offsets in a sentinel as in a node with an element; the element is aligned, lies
after the links and ends inside the memory asked for; the node is given back by the call that matches the request. -/
theorem C89_list_element {T : CType} (hT : IsType T) (double : Bool) {d : Nat} (hd : ∃ j, d = 2 ^ j)
    (hw : (dataNodeLayout double T).size < wordSize) {node : Nat} (hg : Granted d (dataNodeRequest d double T) node) :
    dataAddr double T node % T.align = 0 ∧ node % ptr.align = 0 ∧
    node + (structOf (nodeMembers double)).size ≤ dataAddr double T node ∧
    dataAddr double T node + T.size ≤ node + (dataNodeRequest d double T).bytes ∧
    offsets 0 (helperMembers double T) = offsets 0 (nodeMembers double) ++ [dataOffset double T] ∧
    dataNodeRelease d double T = dataNodeRequest d double T := by
  obtain ⟨k, hk⟩ := hT.pow
  have hpos : 0 < T.align := by rw [hk]; exact Nat.two_pow_pos k
  have hmax : ∃ m, max 8 T.align = 2 ^ m := by
    by_cases h : T.align ≤ 8
    · exact ⟨3, by omega⟩
    · exact ⟨k, by omega⟩
  have ha : node % (max 8 T.align) = 0 := by
    have := granted_aligned hd (l := dataNodeLayout double T) (by rw [dataNodeLayout, helper_eq]; exact hmax) hg
    rwa [dataNodeLayout, helper_eq] at this
  have hT8 : node % T.align = 0 ∧ node % 8 = 0 := by
    obtain ⟨m, hm⟩ := hmax
    rw [hm] at ha
    constructor
    · rw [hk]; exact mod_of_pow (by omega) ha
    · exact mod_of_pow (i := 3) (by omega) ha
  have hoff := roundUp_ge (if double then 24 else 16) hpos
  have hoffm := roundUp_mod (if double then 24 else 16) T.align
  refine ⟨?_, hT8.2, ?_, ?_, ?_, ?_⟩
  · rw [dataAddr, dataOffset_eq, Nat.add_mod, hT8.1, hoffm]; simp
  · rw [dataAddr, dataOffset_eq]
    have : (structOf (nodeMembers double)).size = if double then 24 else 16 := by cases double <;> rfl
    omega
  · have hb : (dataNodeRequest d double T).bytes = (dataNodeLayout double T).size := by
      unfold dataNodeRequest allocateCall
      have : wrap ((dataNodeLayout double T).size * 1) = (dataNodeLayout double T).size := by
        rw [Nat.mul_one]; exact Nat.mod_eq_of_lt hw
      split <;> exact this
    rw [hb, dataNodeLayout, helper_eq, dataAddr, dataOffset_eq]
    have := roundUp_ge (roundUp (if double then 24 else 16) T.align + T.size) (a := max 8 T.align) (by omega)
    simp only [fromType]
    omega
  · cases double <;> rfl
  · unfold dataNodeRelease dataNodeRequest allocateCall deallocateCall
    rw [Nat.mul_comm]

/-- **C89, sentinels.** A sentinel's links are aligned and inside the memory asked for, and it is given back by the
matching call. -/
theorem C89_sentinel (double : Bool) {d : Nat} (hd : ∃ j, d = 2 ^ j) {node : Nat} (hg : Granted d (nodeRequest d double) node) :
    node % ptr.align = 0 ∧ extent 0 (nodeMembers double) ≤ (nodeRequest d double).bytes ∧
    nodeRelease d double = nodeRequest d double := by
  refine ⟨?_, ?_, ?_⟩
  · have := granted_aligned hd (l := fromType (structOf (nodeMembers double))) ⟨3, by cases double <;> rfl⟩ hg
    cases double <;> exact this
  · unfold nodeRequest allocateCall
    cases double <;> split <;> decide
  · unfold nodeRelease nodeRequest allocateCall deallocateCall
    rw [Nat.mul_comm]

/-- **C89, vectors.** If the byte count does not wrap, every slot is aligned and inside the memory asked for, and different
slots do not overlap. -/
theorem C89_vector_slots {T : CType} (hT : IsType T) {d : Nat} (hd : ∃ j, d = 2 ^ j) {n : Nat} (hw : T.size * n < wordSize)
    {base : Nat} (hg : Granted d (vectorRequest d T n) base) {k : Nat} (hk : k < n) :
    elemAddr T base k % T.align = 0 ∧ base ≤ elemAddr T base k ∧
    elemAddr T base k + T.size ≤ base + (vectorRequest d T n).bytes ∧
    ∀ l, k < l → elemAddr T base k + T.size ≤ elemAddr T base l := by
  have ha : base % T.align = 0 := granted_aligned (l := fromType T) hd hT.pow hg
  have hb : (vectorRequest d T n).bytes = T.size * n := by
    unfold vectorRequest allocateCall
    have : wrap (T.size * n) = T.size * n := Nat.mod_eq_of_lt hw
    split <;> exact this
  have step : ∀ l, k < l → k * T.size + T.size ≤ l * T.size := by
    intro l hl
    have := Nat.mul_le_mul_right T.size (show k + 1 ≤ l from hl)
    rwa [Nat.add_mul, Nat.one_mul] at this
  refine ⟨?_, Nat.le_add_right _ _, ?_, ?_⟩
  · have := hT.mult
    simp [elemAddr, Nat.add_mod, Nat.mul_mod, ha, this]
  · rw [hb, elemAddr, Nat.mul_comm T.size n]
    have := step n hk
    omega
  · intro l hl
    have := step l hl
    simp only [elemAddr]; omega

/-- The byte count wraps for counts no memory can hold; the request is then too small (see C15), for every type and count, and for every type of
more than one byte there is such a count that fits in a `usize`. -/
theorem C89_vector_wrap_fails (d : Nat) (T : CType) :
    (∀ n, wordSize ≤ T.size * n → (vectorRequest d T n).bytes < T.size * n) ∧
    (1 < T.size → ∃ n, n < wordSize ∧ wordSize ≤ T.size * n) := by
  have hW : wordSize = 18446744073709551616 := rfl
  constructor
  · intro n h
    have hb : (vectorRequest d T n).bytes = T.size * n % wordSize := by
      simp only [vectorRequest, allocateCall]
      split <;> rfl
    rw [hb]
    exact Nat.lt_of_lt_of_le (Nat.mod_lt _ (by omega)) h
  · intro h
    refine ⟨9223372036854775808, by omega, ?_⟩
    have := Nat.mul_le_mul_right 9223372036854775808 (show 2 ≤ T.size from h)
    omega

/-- 2^61 eight-byte elements: nothing at all is asked for. -/
example : (vectorRequest 16 ⟨8, 8⟩ (2 ^ 61)).bytes = 0 ∧ wordSize ≤ (⟨8, 8⟩ : CType).size * 2 ^ 61 := by decide

/-- An over-aligned type, and one smaller than a pointer. -/
example : IsType ⟨64, 32⟩ ∧ dataOffset true ⟨64, 32⟩ = 32 ∧ dataNodeRequest 16 true ⟨64, 32⟩ = ⟨96, some 32⟩ ∧
    Granted 16 (dataNodeRequest 16 true ⟨64, 32⟩) 4128 ∧ dataAddr true ⟨64, 32⟩ 4128 = 4160 :=
  ⟨⟨⟨5, rfl⟩, rfl⟩, by decide, by decide, by decide, by decide⟩
example : IsType ⟨1, 1⟩ ∧ dataOffset false ⟨1, 1⟩ = 16 ∧ dataNodeRequest 16 false ⟨1, 1⟩ = ⟨24, none⟩ :=
  ⟨⟨⟨0, rfl⟩, rfl⟩, by decide, by decide⟩
example : Granted 16 (nodeRequest 16 true) 4128 ∧ Granted 16 (vectorRequest 16 ⟨24, 8⟩ 3) 4128 := by decide

end Verif.Props
