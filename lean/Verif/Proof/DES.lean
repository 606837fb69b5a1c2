import Verif.Model.DES

/-!
# DES: inversion of the permutations, the block function is an involution, packet loops
-/

namespace CT.DES

theorem swapMove_inv (k : Nat) (m : U32) (hm : (m <<< k) >>> k = m) (p : U32 × U32) :
    swapMove k m (swapMove k m p) = p := by
  obtain ⟨X, Y⟩ := p
  have h : ∀ T : U32, ((T &&& m) <<< k) >>> k &&& m = T &&& m := by
    intro T
    have : m = (m <<< k) >>> k := hm.symm
    ext i hi
    have hb : m.getLsbD i = (decide (k + i < 32) && m.getLsbD i) := by
      conv => lhs; rw [this]
      simp only [BitVec.getLsbD_ushiftRight, BitVec.getLsbD_shiftLeft]
      by_cases hk : k + i < 32
      · simp [hk]
      · simp [hk]
    simp only [BitVec.getElem_and, BitVec.getElem_ushiftRight, BitVec.getLsbD_shiftLeft, BitVec.getLsbD_and]
    rw [BitVec.getLsbD_eq_getElem hi] at hb
    by_cases hk : k + i < 32
    · have : ¬ k + i < k := by omega
      simp [hk, hi, Bool.and_assoc]
    · simp only [hk, decide_false, Bool.false_and] at hb ⊢
      simp [hb]
  have hT : ∀ T : U32, (((X ^^^ ((T &&& m) <<< k)) >>> k) ^^^ (Y ^^^ (T &&& m))) &&& m =
      ((X >>> k) ^^^ Y) &&& m := by
    intro T
    have h1 : (X ^^^ ((T &&& m) <<< k)) >>> k = (X >>> k) ^^^ (((T &&& m) <<< k) >>> k) := by
      ext i hi
      simp
    have e := h T
    ext i hi
    have ei : (((T &&& m) <<< k) >>> k &&& m)[i] = (T &&& m)[i] := by rw [e]
    rw [h1]
    simp only [BitVec.getElem_and, BitVec.getElem_xor] at ei ⊢
    generalize (((T &&& m) <<< k) >>> k)[i] = a at *
    generalize (X >>> k)[i] = b at *
    generalize Y[i] = c at *
    generalize T[i] = d at *
    generalize m[i] = e at *
    revert ei
    revert a b c d e
    decide
  simp only [swapMove, hT]
  have x2 : ∀ a b : U32, a ^^^ b ^^^ b = a := by intro a b; rw [BitVec.xor_assoc, BitVec.xor_self, BitVec.xor_zero]
  rw [x2, x2]

theorem swapMove'_inv (k : Nat) (m : U32) (hm : (m <<< k) >>> k = m) (p : U32 × U32) :
    swapMove' k m (swapMove' k m p) = p := by
  have := swapMove_inv k m hm (p.2, p.1)
  simp only [swapMove']
  rw [show ((swapMove k m (p.2, p.1)).1, (swapMove k m (p.2, p.1)).2) = swapMove k m (p.2, p.1) from rfl, this]

theorem rol1_eq (x : U32) : rol1 x = x.rotateLeft 1 := by
  ext i hi
  have := hi
  simp only [rol1, BitVec.getElem_and, BitVec.getElem_or, BitVec.getElem_shiftLeft, BitVec.getElem_ushiftRight,
    BitVec.getElem_rotateLeft]
  rcases Nat.eq_zero_or_pos i with h | h
  · subst h; simp
  · have h1 : ¬ i < 1 := by omega
    have hm : (4294967295#32)[i] = true := by
      have := BitVec.getElem_allOnes (v := 32) i hi
      exact this
    simp [h1, hm]
    intro hx
    rw [BitVec.getLsbD_of_ge x _ (by omega)] at hx
    exact absurd hx (by simp)

theorem ror1_eq (x : U32) : ror1 x = x.rotateRight 1 := by
  ext i hi
  have hm : (4294967295#32)[i] = true := by
    have := BitVec.getElem_allOnes (v := 32) i hi
    exact this
  simp only [ror1, BitVec.getElem_and, BitVec.getElem_or, BitVec.getElem_shiftLeft, BitVec.getElem_ushiftRight,
    BitVec.getElem_rotateRight]
  by_cases h : i < 31
  · simp [h, hm, BitVec.getLsbD_eq_getElem (show 1 + i < 32 by omega)]
  · have : i = 31 := by omega
    subst this
    simp

theorem ror1_rol1 (x : U32) : ror1 (rol1 x) = x := by
  rw [rol1_eq, ror1_eq]
  ext i hi
  rw [BitVec.getElem_rotateRight]
  by_cases h : i < 31
  · simp [h, BitVec.getElem_rotateLeft]
  · have : i = 31 := by omega
    subst this
    simp [BitVec.getElem_rotateLeft]

theorem rol1_ror1 (x : U32) : rol1 (ror1 x) = x := by
  rw [rol1_eq, ror1_eq]
  ext i hi
  rw [BitVec.getElem_rotateLeft]
  by_cases h : i < 1
  · have : i = 0 := by omega
    subst this
    simp [BitVec.getElem_rotateRight]
  · simp [h, BitVec.getElem_rotateRight]
    rw [dif_pos (by omega)]
    congr 1
    omega

theorem fp_ip (p : U32 × U32) : fp (ip p) = p := by
  simp only [fp, ip, ror1_rol1]
  rw [swapMove_inv 0 _ (by decide)]
  simp only [ror1_rol1]
  rw [swapMove'_inv 8 _ (by decide), swapMove'_inv 2 _ (by decide), swapMove_inv 16 _ (by decide),
    swapMove_inv 4 _ (by decide)]

theorem ip_fp (p : U32 × U32) : ip (fp p) = p := by
  simp only [fp, ip]
  rw [swapMove_inv 4 _ (by decide), swapMove_inv 16 _ (by decide), swapMove'_inv 2 _ (by decide),
    swapMove'_inv 8 _ (by decide)]
  simp only [rol1_ror1]
  rw [swapMove_inv 0 _ (by decide)]
  simp only [rol1_ror1]

/-! ### The Feistel network with one round key -/

/-- One double round. -/
def dbl (rk : List U32) (p : U32 × U32) : U32 × U32 :=
  (p.1 ^^^ roundF rk p.2, p.2 ^^^ roundF rk (p.1 ^^^ roundF rk p.2))

theorem rounds_succ (rk : List U32) (n : Nat) (p : U32 × U32) : rounds rk (n + 1) p = rounds rk n (dbl rk p) := rfl

theorem rounds_succ' (rk : List U32) (n : Nat) (p : U32 × U32) : rounds rk (n + 1) p = dbl rk (rounds rk n p) := by
  induction n generalizing p with
  | zero => rfl
  | succ n ih => rw [rounds_succ, ih, ← rounds_succ]

def sw (p : U32 × U32) : U32 × U32 := (p.2, p.1)

/-- A double round is undone by a double round on exchanged halves. -/
theorem dbl_sw (rk : List U32) (p : U32 × U32) : dbl rk (sw (dbl rk p)) = sw p := by
  obtain ⟨X, Y⟩ := p
  have x2 : ∀ a b : U32, a ^^^ b ^^^ b = a := by intro a b; rw [BitVec.xor_assoc, BitVec.xor_self, BitVec.xor_zero]
  simp only [dbl, sw, x2]

theorem rounds_sw (rk : List U32) (n : Nat) (p : U32 × U32) : rounds rk n (sw (rounds rk n p)) = sw p := by
  induction n generalizing p with
  | zero => rfl
  | succ n ih => rw [rounds_succ' rk n p, rounds_succ, dbl_sw, ih]

theorem ecbBlock_involution (rk : List U32) (p : U32 × U32) : ecbBlock rk (ecbBlock rk p) = p := by
  have e : ∀ q, ecbBlock rk q = fp (sw (rounds rk 8 (ip q))) := fun _ => rfl
  rw [e, e, ip_fp, rounds_sw]
  exact fp_ip p

/-- The block function uses only the first two words of the schedule. -/
theorem ecbBlock_congr (rk rk' : List U32) (h0 : rk.getD 0 0 = rk'.getD 0 0) (h1 : rk.getD 1 0 = rk'.getD 1 0) :
    ecbBlock rk = ecbBlock rk' := by
  have hF : roundF rk = roundF rk' := by
    funext X
    simp only [roundF, h0, h1]
  have hr : ∀ n p, rounds rk n p = rounds rk' n p := by
    intro n
    induction n with
    | zero => intro p; rfl
    | succ n ih => intro p; simp only [rounds, hF, ih]
  funext p
  simp only [ecbBlock, hr]

/-! ### Packet loops -/

/-- Apply a function to the pairs of words of a list. -/
def mapPairs (f : U32 × U32 → U32 × U32) : List U32 → List U32
  | x :: y :: r => (f (x, y)).1 :: (f (x, y)).2 :: mapPairs f r
  | r => r

theorem mapPairs_length (f : U32 × U32 → U32 × U32) (l : List U32) : (mapPairs f l).length = l.length := by
  induction l using mapPairs.induct with
  | case1 x y r ih => simp [mapPairs, ih]
  | case2 r h => 
    unfold mapPairs
    split
    · exact absurd rfl (h _ _ _)
    · rfl

theorem mapPairs_mapPairs (f g : U32 × U32 → U32 × U32) (l : List U32) :
    mapPairs f (mapPairs g l) = mapPairs (fun p => f (g p)) l := by
  induction l using mapPairs.induct with
  | case1 x y r ih => simp [mapPairs, ih]
  | case2 r h =>
    match r, h with
    | [], _ => rfl
    | [_], _ => rfl
    | x :: y :: r, h => exact absurd rfl (h _ _ _)

theorem mapPairs_id (l : List U32) : mapPairs (fun p => p) l = l := by
  induction l using mapPairs.induct with
  | case1 x y r ih => simp [mapPairs, ih]
  | case2 r h =>
    match r, h with
    | [], _ => rfl
    | [_], _ => rfl
    | x :: y :: r, h => exact absurd rfl (h _ _ _)

theorem wr_append (a : Arrs) (p l : List U32) (v w : U32) (h : a.out = p ++ v :: l) :
    a.wr p.length w = .ok { a with out := p ++ w :: l } := by
  rw [Arrs.wr, h]
  simp

theorem rd_split (a : Arrs) (p l : List U32) (v : U32) (h : (if a.alias then a.out else a.inp) = p ++ v :: l) :
    a.rd p.length = .ok v := by
  rw [Arrs.rd, h]
  simp

/-- One body of either loop on the arrays: read two words, write two words, in either order of
reading the second and writing the first. -/
theorem ecb_body (rk : List U32) (a : Arrs) (pi po li lo : List U32) (x y u v : U32)
    (hl : pi.length = po.length)
    (hi : (if a.alias then a.out else a.inp) = pi ++ x :: y :: li) (ho : a.out = po ++ u :: v :: lo) :
    (do let x ← a.rd po.length
        let y ← a.rd (po.length + 1)
        let p := ecbBlock rk (x, y)
        let a ← a.wr po.length p.1
        a.wr (po.length + 1) p.2) =
      .ok { a with out := po ++ (ecbBlock rk (x, y)).1 :: (ecbBlock rk (x, y)).2 :: lo } := by
  have h1 := rd_split a pi (y :: li) x hi
  have h2 := rd_split a (pi ++ [x]) li y (by simpa using hi)
  rw [List.length_append, List.length_singleton] at h2
  rw [hl] at h1 h2
  rw [h1, Res.ok_bind, h2, Res.ok_bind]
  show (do let a ← a.wr po.length (ecbBlock rk (x, y)).1
           a.wr (po.length + 1) (ecbBlock rk (x, y)).2) = _
  rw [wr_append a po (v :: lo) u _ ho, Res.ok_bind]
  have h3 := wr_append { a with out := po ++ (ecbBlock rk (x, y)).1 :: v :: lo } (po ++ [(ecbBlock rk (x, y)).1]) lo v
    (ecbBlock rk (x, y)).2 (by simp)
  rw [List.length_append, List.length_singleton] at h3
  rw [h3]
  simp

theorem ctr_body (k : U32 × U32) (a : Arrs) (pi po li lo : List U32) (x y u v : U32)
    (hl : pi.length = po.length)
    (hi : (if a.alias then a.out else a.inp) = pi ++ x :: y :: li) (ho : a.out = po ++ u :: v :: lo) :
    (do let x ← a.rd po.length
        let a ← a.wr po.length (x ^^^ k.1)
        let y ← a.rd (po.length + 1)
        a.wr (po.length + 1) (y ^^^ k.2)) =
      .ok { a with out := po ++ (x ^^^ k.1) :: (y ^^^ k.2) :: lo } := by
  have h1 := rd_split a pi (y :: li) x hi
  rw [hl] at h1
  rw [h1, Res.ok_bind, wr_append a po (v :: lo) u _ ho, Res.ok_bind]
  have h2 : ({ a with out := po ++ (x ^^^ k.1) :: v :: lo } : Arrs).rd (po.length + 1) = .ok y := by
    by_cases ha : a.alias = true
    · rw [if_pos ha, ho] at hi
      obtain ⟨e1, e2⟩ := List.append_inj hi hl.symm
      injection e2 with e2 e3
      injection e3 with e3 e4
      have h2 := rd_split { a with out := po ++ (x ^^^ k.1) :: v :: lo } (po ++ [x ^^^ k.1]) lo y
        (by simp [ha, e3])
      simpa using h2
    · have h2 := rd_split { a with out := po ++ (x ^^^ k.1) :: v :: lo } (pi ++ [x]) li y
        (by simp only [ha] at hi ⊢; simpa using hi)
      rw [List.length_append, List.length_singleton, hl] at h2
      exact h2
  rw [h2, Res.ok_bind]
  have h3 := wr_append { a with out := po ++ (x ^^^ k.1) :: v :: lo } (po ++ [x ^^^ k.1]) lo v (y ^^^ k.2) (by simp)
  rw [List.length_append, List.length_singleton] at h3
  rw [h3]
  simp

/-- The arrays after a body still have the shape the next one needs. -/
theorem next_src (a : Arrs) (pi po li lo xs os : List U32) (x y u v f1 f2 : U32)
    (hal : a.alias = true → xs = os ∧ li = lo)
    (hi : (if a.alias then a.out else a.inp) = pi ++ (x :: y :: xs) ++ li) :
    (if a.alias then po ++ f1 :: f2 :: (os ++ lo) else a.inp) =
      (if a.alias then po ++ [f1, f2] else pi ++ [x, y]) ++ xs ++ li := by
  by_cases ha : a.alias = true
  · obtain ⟨e1, e2⟩ := hal ha
    simp [ha, e1, e2]
  · simp only [ha] at hi ⊢
    simpa using hi

theorem two_words {l : List U32} {n : Nat} (h : l.length = 2 * (n + 1)) :
    ∃ x y r, l = x :: y :: r ∧ r.length = 2 * n := by
  match l, h with
  | x :: y :: r, h => exact ⟨x, y, r, rfl, by simp only [List.length_cons] at h; omega⟩
  | [_], h => simp only [List.length_cons, List.length_nil] at h; omega
  | [], h => simp only [List.length_nil] at h; omega

theorem ecbLoop_ok (rk : List U32) (n fuel : Nat) (pi po li lo xs os : List U32) (a : Arrs)
    (hf : n < fuel) (hn : 8 * n < 2 ^ 64) (hl : pi.length = po.length)
    (hx : xs.length = 2 * n) (ho' : os.length = 2 * n)
    (hal : a.alias = true → xs = os ∧ li = lo)
    (hi : (if a.alias then a.out else a.inp) = pi ++ xs ++ li) (ho : a.out = po ++ os ++ lo) :
    ecbLoop rk fuel (8 * n) po.length a = .ok { a with out := po ++ mapPairs (ecbBlock rk) xs ++ lo } := by
  induction n generalizing fuel pi po xs os a with
  | zero =>
    obtain ⟨fuel, rfl⟩ : ∃ m, fuel = m + 1 := ⟨fuel - 1, by omega⟩
    have hx0 : xs = [] := List.eq_nil_of_length_eq_zero (by omega)
    have ho0 : os = [] := List.eq_nil_of_length_eq_zero (by omega)
    subst hx0 ho0
    rw [ecbLoop, if_neg (by omega)]
    cases a
    simp only at ho
    rw [ho]
    rfl
  | succ n ih =>
    obtain ⟨fuel, rfl⟩ : ∃ m, fuel = m + 1 := ⟨fuel - 1, by omega⟩
    obtain ⟨x, y, xs, rfl, hx2⟩ := two_words hx
    obtain ⟨u, v, os, rfl, ho2⟩ := two_words ho'
    have hb := ecb_body rk a pi po (xs ++ li) (os ++ lo) x y u v hl (by simpa using hi) (by simpa using ho)
    have hal' : a.alias = true → xs = os ∧ li = lo := by
      intro h
      obtain ⟨e1, e2⟩ := hal h
      injection e1 with _ e1
      injection e1 with _ e1
      exact ⟨e1, e2⟩
    have hs : (8 * (n + 1) + 2 ^ 64 - 8) % 2 ^ 64 = 8 * n := by omega
    rw [ecbLoop, if_pos (by omega), hs]
    have hb2 : ∀ k : Arrs → Res Arrs, (do
        let x ← a.rd po.length
        let y ← a.rd (po.length + 1)
        let p := ecbBlock rk (x, y)
        let a ← a.wr po.length p.1
        let a ← a.wr (po.length + 1) p.2
        k a) = (do
        let a ← (do
          let x ← a.rd po.length
          let y ← a.rd (po.length + 1)
          let p := ecbBlock rk (x, y)
          let a ← a.wr po.length p.1
          a.wr (po.length + 1) p.2)
        k a) := by
      intro k
      cases a.rd po.length with
      | ub e => rfl
      | ok x =>
        cases a.rd (po.length + 1) with
        | ub e => rfl
        | ok y =>
          simp only [Res.ok_bind]
          cases a.wr po.length (ecbBlock rk (x, y)).1 with
          | ub e => rfl
          | ok a' => rfl
    rw [hb2 (ecbLoop rk fuel (8 * n) (po.length + 2)), hb, Res.ok_bind]
    have := ih fuel (if a.alias then po ++ [(ecbBlock rk (x, y)).1, (ecbBlock rk (x, y)).2] else pi ++ [x, y])
      (po ++ [(ecbBlock rk (x, y)).1, (ecbBlock rk (x, y)).2]) xs os
      { a with out := po ++ (ecbBlock rk (x, y)).1 :: (ecbBlock rk (x, y)).2 :: (os ++ lo) } (by omega) (by omega)
      (by split <;> simp [hl]) hx2 ho2 hal' (next_src a pi po li lo xs os x y u v _ _ hal' hi) (by simp)
    rw [List.length_append] at this
    simp only [List.length_cons, List.length_nil, Nat.zero_add] at this
    rw [this]
    simp [mapPairs]

theorem ctrLoop_ok (rk : List U32) (iv0 iv1 : U32) (n fuel : Nat) (iv3 : U32) (pi po li lo xs os : List U32) (a : Arrs)
    (hf : n < fuel) (hn : 8 * n < 2 ^ 64) (hl : pi.length = po.length)
    (hx : xs.length = 2 * n) (ho' : os.length = 2 * n)
    (hal : a.alias = true → xs = os ∧ li = lo)
    (hi : (if a.alias then a.out else a.inp) = pi ++ xs ++ li) (ho : a.out = po ++ os ++ lo) :
    ctrLoop rk iv0 iv1 fuel iv3 (8 * n) po.length a = .ok { a with out := (po ++ mapPairs (fun p => (p.1 ^^^ (ecbBlock rk (iv0, iv1)).1, p.2 ^^^ (ecbBlock rk (iv0, iv1)).2)) xs ++ lo) } := by
  induction n generalizing fuel iv3 pi po xs os a with
  | zero =>
    obtain ⟨fuel, rfl⟩ : ∃ m, fuel = m + 1 := ⟨fuel - 1, by omega⟩
    have hx0 : xs = [] := List.eq_nil_of_length_eq_zero (by omega)
    have ho0 : os = [] := List.eq_nil_of_length_eq_zero (by omega)
    subst hx0 ho0
    rw [ctrLoop, if_neg (by omega)]
    cases a
    simp only at ho
    rw [ho]
    rfl
  | succ n ih =>
    obtain ⟨fuel, rfl⟩ : ∃ m, fuel = m + 1 := ⟨fuel - 1, by omega⟩
    obtain ⟨x, y, xs, rfl, hx2⟩ := two_words hx
    obtain ⟨u, v, os, rfl, ho2⟩ := two_words ho'
    rw [ctrLoop, if_pos (by omega)]
    generalize ecbBlock rk (iv0, iv1) = k at *
    have hb := ctr_body k a pi po (xs ++ li) (os ++ lo) x y u v hl (by simpa using hi) (by simpa using ho)
    have hal' : a.alias = true → xs = os ∧ li = lo := by
      intro h
      obtain ⟨e1, e2⟩ := hal h
      injection e1 with _ e1
      injection e1 with _ e1
      exact ⟨e1, e2⟩
    have hs : (8 * (n + 1) + 2 ^ 64 - 8) % 2 ^ 64 = 8 * n := by omega
    rw [hs]
    have hb2 : ∀ g : Arrs → Res Arrs, (do
        let x ← a.rd po.length
        let a ← a.wr po.length (x ^^^ k.1)
        let y ← a.rd (po.length + 1)
        let a ← a.wr (po.length + 1) (y ^^^ k.2)
        g a) = (do
        let a ← (do
          let x ← a.rd po.length
          let a ← a.wr po.length (x ^^^ k.1)
          let y ← a.rd (po.length + 1)
          a.wr (po.length + 1) (y ^^^ k.2))
        g a) := by
      intro g
      cases a.rd po.length with
      | ub e => rfl
      | ok x =>
        simp only [Res.ok_bind]
        cases a.wr po.length (x ^^^ k.1) with
        | ub e => rfl
        | ok a' =>
          simp only [Res.ok_bind]
          cases a'.rd (po.length + 1) with
          | ub e => rfl
          | ok y => rfl
    have hb3 := hb2 (ctrLoop rk iv0 iv1 fuel (iv3 + 1) (8 * n) (po.length + 2))
    have hgoal : ctrLoop rk iv0 iv1 fuel (iv3 + 1) (8 * n) (po.length + 2)
        { a with out := po ++ (x ^^^ k.1) :: (y ^^^ k.2) :: (os ++ lo) } = .ok { a with out := (po ++ mapPairs (fun p => (p.1 ^^^ k.1, p.2 ^^^ k.2)) (x :: y :: xs) ++ lo) } := by
      have := ih fuel (iv3 + 1) (if a.alias then po ++ [x ^^^ k.1, y ^^^ k.2] else pi ++ [x, y])
        (po ++ [x ^^^ k.1, y ^^^ k.2]) xs os
        { a with out := po ++ (x ^^^ k.1) :: (y ^^^ k.2) :: (os ++ lo) } (by omega) (by omega)
        (by split <;> simp [hl]) hx2 ho2 hal' (next_src a pi po li lo xs os x y u v _ _ hal' hi) (by simp)
      rw [List.length_append] at this
      simp only [List.length_cons, List.length_nil, Nat.zero_add] at this
      rw [this]
      simp [mapPairs]
    rw [hb, Res.ok_bind, hgoal] at hb3
    exact hb3

/-! ### The loops leave the arrays unless the size is a multiple of eight that fits -/

/-- Number of words behind `input`. -/
def Arrs.srcLen (a : Arrs) : Nat := (if a.alias then a.out else a.inp).length

theorem wr_inv {a b : Arrs} {i : Nat} {w : U32} (h : a.wr i w = .ok b) :
    i < a.out.length ∧ b.out.length = a.out.length ∧ b.srcLen = a.srcLen := by
  rw [Arrs.wr] at h
  split at h
  · next hi =>
    injection h with h
    subst h
    refine ⟨hi, by simp, ?_⟩
    simp only [Arrs.srcLen]
    split <;> simp
  · cases h

theorem rd_inv {a : Arrs} {i : Nat} {w : U32} (h : a.rd i = .ok w) : i < a.srcLen := by
  rw [Arrs.rd] at h
  split at h
  · next v hv => exact (List.getElem?_eq_some_iff.mp hv).1
  · cases h

theorem size_step {size L M o : Nat} (hsz : size < 2 ^ 64) (hp : size > 0)
    (h1 : o + 2 ≤ L) (h2 : o + 2 ≤ M)
    (ih : (size + 2 ^ 64 - 8) % 2 ^ 64 % 8 = 0 ∧ ((size + 2 ^ 64 - 8) % 2 ^ 64 > 0 →
      o + 2 + (size + 2 ^ 64 - 8) % 2 ^ 64 / 4 ≤ L ∧ o + 2 + (size + 2 ^ 64 - 8) % 2 ^ 64 / 4 ≤ M)) :
    size % 8 = 0 ∧ (size > 0 → o + size / 4 ≤ L ∧ o + size / 4 ≤ M) := by
  obtain ⟨i1, i2⟩ := ih
  have hm : size % 8 = 0 := by omega
  refine ⟨hm, fun _ => ?_⟩
  by_cases h8 : size = 8
  · subst h8; omega
  · have := i2 (by omega)
    omega

theorem ecbLoop_inv (rk : List U32) (fuel size o : Nat) (a b : Arrs) (hsz : size < 2 ^ 64)
    (h : ecbLoop rk fuel size o a = .ok b) :
    size % 8 = 0 ∧ (size > 0 → o + size / 4 ≤ a.out.length ∧ o + size / 4 ≤ a.srcLen) := by
  induction fuel generalizing size o a with
  | zero => cases h
  | succ fuel ih =>
    rw [ecbLoop] at h
    by_cases hs : size > 0
    · rw [if_pos hs] at h
      obtain ⟨x, h1, h⟩ := Res.bind_eq_ok h
      obtain ⟨y, h2, h⟩ := Res.bind_eq_ok h
      obtain ⟨a1, h3, h⟩ := Res.bind_eq_ok h
      obtain ⟨a2, h4, h⟩ := Res.bind_eq_ok h
      have i2 := rd_inv h2
      have i3 := wr_inv h3
      have i4 := wr_inv h4
      have := ih _ _ _ (Nat.mod_lt _ (by decide)) h
      rw [i4.2.1, i3.2.1, i4.2.2, i3.2.2] at this
      exact size_step hsz hs (by omega) (by omega) this
    · have : size = 0 := by omega
      subst this
      exact ⟨rfl, fun h => absurd h (by omega)⟩

theorem ctrLoop_inv (rk : List U32) (iv0 iv1 : U32) (fuel : Nat) (iv3 : U32) (size o : Nat) (a b : Arrs) (hsz : size < 2 ^ 64)
    (h : ctrLoop rk iv0 iv1 fuel iv3 size o a = .ok b) :
    size % 8 = 0 ∧ (size > 0 → o + size / 4 ≤ a.out.length ∧ o + size / 4 ≤ a.srcLen) := by
  induction fuel generalizing iv3 size o a with
  | zero => cases h
  | succ fuel ih =>
    rw [ctrLoop] at h
    by_cases hs : size > 0
    · rw [if_pos hs] at h
      obtain ⟨x, h1, h⟩ := Res.bind_eq_ok h
      obtain ⟨a1, h3, h⟩ := Res.bind_eq_ok h
      obtain ⟨y, h2, h⟩ := Res.bind_eq_ok h
      obtain ⟨a2, h4, h⟩ := Res.bind_eq_ok h
      have i2 := rd_inv h2
      have i3 := wr_inv h3
      have i4 := wr_inv h4
      have := ih _ _ _ _ (Nat.mod_lt _ (by decide)) h
      rw [i4.2.1, i3.2.1, i4.2.2, i3.2.2] at this
      exact size_step hsz hs (by omega) (by omega) this
    · have : size = 0 := by omega
      subst this
      exact ⟨rfl, fun h => absurd h (by omega)⟩

/-- Splitting of the arrays for a packet of `n` blocks. -/
theorem split_src (a : Arrs) (n : Nat) :
    (if a.alias then a.out else a.inp) =
      [] ++ (if a.alias then a.out else a.inp).take (2 * n) ++ (if a.alias then a.out else a.inp).drop (2 * n) := by
  simp

theorem ecb_packet (rk : List U32) (a : Arrs) (n : Nat) (hn : 8 * n < 2 ^ 64) (h1 : 2 * n ≤ a.out.length)
    (h2 : 2 * n ≤ a.srcLen) :
    processPacketEcb rk a (8 * n) = .ok (Arrs.mk a.inp
      (mapPairs (ecbBlock rk) ((if a.alias then a.out else a.inp).take (2 * n)) ++ a.out.drop (2 * n)) a.alias) := by
  have := ecbLoop_ok rk n (a.out.length + 1) [] [] ((if a.alias then a.out else a.inp).drop (2 * n)) (a.out.drop (2 * n))
    ((if a.alias then a.out else a.inp).take (2 * n)) (a.out.take (2 * n)) a (by omega) hn rfl
    (by simp only [Arrs.srcLen] at h2; simp [List.length_take]; omega) (by simp [List.length_take]; omega)
    (by intro h; simp [h]) (split_src a n) (by simp)
  simpa [processPacketEcb, processPacketCtr] using this

theorem ctr_packet (rk : List U32) (a : Arrs) (n0 n1 n2 : U32) (ns : List U32) (n : Nat) (hn : 8 * n < 2 ^ 64) (h1 : 2 * n ≤ a.out.length)
    (h2 : 2 * n ≤ a.srcLen) :
    processPacketCtr rk a (n0 :: n1 :: n2 :: ns) (8 * n) = .ok (Arrs.mk a.inp
      (mapPairs (fun p => (p.1 ^^^ (ecbBlock rk (n0, n1)).1, p.2 ^^^ (ecbBlock rk (n0, n1)).2))
        ((if a.alias then a.out else a.inp).take (2 * n)) ++ a.out.drop (2 * n)) a.alias) := by
  have := ctrLoop_ok rk n0 n1 n (a.out.length + 1) 0 [] [] ((if a.alias then a.out else a.inp).drop (2 * n)) (a.out.drop (2 * n))
    ((if a.alias then a.out else a.inp).take (2 * n)) (a.out.take (2 * n)) a (by omega) hn rfl
    (by simp only [Arrs.srcLen] at h2; simp [List.length_take]; omega) (by simp [List.length_take]; omega)
    (by intro h; simp [h]) (split_src a n) (by simp)
  simpa [processPacketEcb, processPacketCtr] using this

end CT.DES
