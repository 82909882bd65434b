import Verif.Go.Res
/-!
# Slice access lemmas
-/
namespace Verif

theorem goGet_eq {α : Type} {l : List α} {z : Int} {n : Nat} {a : α} (hz : z = n) (h : l[n]? = some a) :
    goGet l z = .ok a := by
  subst hz; simp [goGet, h]

theorem goGet_eq_lt {α : Type} {l : List α} {z : Int} {n : Nat} (hz : z = n) (h : n < l.length) :
    goGet l z = .ok l[n] := by
  subst hz; simp [goGet, h]

theorem goSet_eq {α : Type} {l : List α} {z : Int} {n : Nat} {v : α} (hz : z = n) (h : n < l.length) :
    goSet l z v = .ok (l.set n v) := by
  subst hz; simp [goSet, h]

theorem goGet_eq_ok {α : Type} {l : List α} {z : Int} {a : α} :
    goGet l z = .ok a ↔ ∃ n : Nat, z = n ∧ l[n]? = some a := by
  constructor
  · intro h
    unfold goGet at h
    split at h
    · cases h
    · exact ⟨z.toNat, by omega, Res.ofOption_eq_ok.mp h⟩
  · rintro ⟨n, rfl, h⟩; exact goGet_eq rfl h

theorem goSet_eq_ok {α : Type} {l l' : List α} {z : Int} {v : α} :
    goSet l z v = .ok l' ↔ ∃ n : Nat, z = n ∧ n < l.length ∧ l' = l.set n v := by
  constructor
  · intro h
    unfold goSet at h
    split at h
    · rename_i hc
      exact ⟨z.toNat, by omega, hc.2, by injection h with h; exact h.symm⟩
    · cases h
  · rintro ⟨n, rfl, h, rfl⟩; exact goSet_eq rfl h

theorem goGet_panic {α : Type} {l : List α} {z : Int} (h : z < 0 ∨ (l.length : Int) ≤ z) : goGet l z = .panic := by
  unfold goGet
  split
  · rfl
  · rw [List.getElem?_eq_none (by omega)]; rfl

theorem goSet_panic {α : Type} {l : List α} {z : Int} {v : α} (h : z < 0 ∨ (l.length : Int) ≤ z) :
    goSet l z v = .panic := by
  unfold goSet
  rw [if_neg (by omega)]

theorem goGet_ne_fuel' {α : Type} (l : List α) (z : Int) : goGet l z ≠ .fuel := by
  unfold goGet
  split
  · simp
  · cases l[z.toNat]? <;> simp

end Verif
