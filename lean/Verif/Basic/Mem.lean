import Verif.Basic.Bytes

/-!
# Bounds-checked access to an array of bytes or words
-/

namespace CT.Mem

variable {α : Type}

/-- `p[i]` -/
def rd (l : List α) (i : Nat) : Res α :=
  match l[i]? with
  | some b => .ok b
  | none => .ub .outOfBounds

/-- `p[i] = v` -/
def wr (l : List α) (i : Nat) (v : α) : Res (List α) :=
  if i < l.length then .ok (l.set i v) else .ub .outOfBounds

/-- Store consecutive elements from index `i` on. -/
def wrs (l : List α) (i : Nat) : List α → Res (List α)
  | [] => .ok l
  | v :: vs => do
    let l ← wr l i v
    wrs l (i + 1) vs

theorem rd_eq {l : List α} {i : Nat} (h : i < l.length) : rd l i = .ok l[i] := by simp [rd, h]

theorem rd_append_right (p l : List α) (k : Nat) : rd (p ++ l) (p.length + k) = rd l k := by
  rw [rd, rd, List.getElem?_append_right (by omega), Nat.add_sub_cancel_left]

theorem wr_append_cons (p l : List α) (a v : α) : wr (p ++ a :: l) p.length v = .ok (p ++ v :: l) := by
  simp [wr]

theorem wrs_append {p l : List α} (vs : List α) (h : vs.length ≤ l.length) :
    wrs (p ++ l) p.length vs = .ok (p ++ vs ++ l.drop vs.length) := by
  induction vs generalizing p l with
  | nil => simp [wrs]
  | cons v vs ih =>
    cases l with
    | nil => simp at h
    | cons a l =>
      rw [wrs, wr_append_cons]
      have := @ih (p ++ [v]) l (by simpa using h)
      simp only [Res.ok_bind, List.drop_succ_cons, List.length_cons]
      simpa using this

theorem wrs_eq {l : List α} (i : Nat) (vs : List α) (h : i + vs.length ≤ l.length) :
    wrs l i vs = .ok (l.take i ++ vs ++ l.drop (i + vs.length)) := by
  have e : l = l.take i ++ l.drop i := (List.take_append_drop i l).symm
  have hl : (l.take i).length = i := by rw [List.length_take]; omega
  have := wrs_append (p := l.take i) (l := l.drop i) vs (by rw [List.length_drop]; omega)
  rw [← e, hl, List.drop_drop] at this
  exact this

/-- A store outside is undefined behaviour. -/
theorem wrs_oob {l : List α} (i : Nat) (vs : List α) (h : l.length < i + vs.length) (h0 : vs ≠ []) :
    wrs l i vs = .ub .outOfBounds := by
  induction vs generalizing l i with
  | nil => exact absurd rfl h0
  | cons v vs ih =>
    rw [wrs, wr]
    split
    · rename_i hi
      cases vs with
      | nil => simp at h; omega
      | cons w vs =>
        simp only [Res.ok_bind]
        apply ih
        · simp at h ⊢; omega
        · simp
    · rfl

end CT.Mem
