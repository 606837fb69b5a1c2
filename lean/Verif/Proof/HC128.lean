import Verif.Model.HC128
import Verif.Spec.HC128
import Verif.Basic.Lockstep

namespace CT.HC128
open Spec

/-- The model state represents the specification state. -/
def R (cs : State) (s : HC128.St) : Prop :=
  (∀ i : Fin 512, cs.P.get i = s.P i) ∧ (∀ i : Fin 512, cs.Q.get i = s.Q i)

theorem f1_eq (x : U32) : f1 x = Spec.HC128.f1 x := by
  simp only [f1, Spec.HC128.f1, rotr32_eq _ (n := 7) (by decide) (by decide),
    rotr32_eq _ (n := 18) (by decide) (by decide)]
theorem f2_eq (x : U32) : f2 x = Spec.HC128.f2 x := by
  simp only [f2, Spec.HC128.f2, rotr32_eq _ (n := 17) (by decide) (by decide),
    rotr32_eq _ (n := 19) (by decide) (by decide)]
theorem g1_eq (x y z : U32) : g1 x y z = Spec.HC128.g1 x y z := by
  simp only [g1, Spec.HC128.g1, rotr32_eq _ (n := 10) (by decide) (by decide),
    rotr32_eq _ (n := 23) (by decide) (by decide), rotr32_eq _ (n := 8) (by decide) (by decide)]
theorem g2_eq (x y z : U32) : g2 x y z = Spec.HC128.g2 x y z := by
  simp only [g2, Spec.HC128.g2, rotl32_eq _ (n := 10) (by decide) (by decide),
    rotl32_eq _ (n := 23) (by decide) (by decide), rotl32_eq _ (n := 8) (by decide) (by decide)]

theorem lowIdx_val (x : U32) : (lowIdx x).val = Spec.HC128.byte x 0 := by
  simp [lowIdx, Spec.HC128.byte, BitVec.toNat_setWidth]

theorem highIdx_val (x : U32) : (highIdx x).val = 256 + Spec.HC128.byte x 2 := by
  simp [highIdx, Spec.HC128.byte, BitVec.toNat_setWidth, Nat.shiftRight_eq_div_pow]

theorem h_eq {T : Table} {F : Nat → U32} (hT : ∀ i : Fin 512, T.get i = F i) (x : U32) :
    h T x = Spec.HC128.h F x := by
  simp only [h, Spec.HC128.h, hT, lowIdx_val, highIdx_val]

theorem back_val (j k : Nat) : (back j k).val = Spec.HC128.bsub j k := rfl

theorem feed_eq {T : Table} {F : Nat → U32} (hT : ∀ i : Fin 512, T.get i = F i)
    {g g' : U32 → U32 → U32 → U32} (hg : ∀ x y z, g x y z = g' x y z) (j : Fin 512) :
    feed g T j = F j + g' (F (Spec.HC128.bsub j 3)) (F (Spec.HC128.bsub j 10)) (F (Spec.HC128.bsub j 511)) := by
  simp only [feed, hT, hg, back_val]

theorem set_eq {T : Table} {F : Nat → U32} (hT : ∀ i : Fin 512, T.get i = F i) (j : Nat) (hj : j < 512)
    {v w : U32} (hv : v = w) :
    ∀ i : Fin 512, (T.set j v hj).get i = Spec.HC128.upd F j w i := by
  intro i
  have e : ∀ (V : Table) (i : Fin 512), V.get i = V[i.val] := fun V i => rfl
  rw [e, Vector.getElem_set, Spec.HC128.upd, ← e T i, hT i, hv]
  by_cases h : j = i.val
  · rw [if_pos h, if_pos h.symm]
  · rw [if_neg h, if_neg (fun h' => h h'.symm)]

theorem step_eq {cs : State} {s : HC128.St} (hR : R cs s) (i : Nat) :
    R (step cs i).1 (Spec.HC128.step s i).1 ∧ (step cs i).2 = (Spec.HC128.step s i).2 := by
  simp only [step, Spec.HC128.step]
  split
  · have hP := set_eq hR.1 (i % 512) (Nat.mod_lt _ (by decide))
      (feed_eq hR.1 g1_eq ⟨i % 512, Nat.mod_lt _ (by decide)⟩)
    refine ⟨⟨hP, hR.2⟩, ?_⟩
    rw [h_eq hR.2, hP, hP]; rfl
  · have hQ := set_eq hR.2 (i % 512) (Nat.mod_lt _ (by decide))
      (feed_eq hR.2 g2_eq ⟨i % 512, Nat.mod_lt _ (by decide)⟩)
    refine ⟨⟨hR.1, hQ⟩, ?_⟩
    rw [h_eq hR.1, hQ, hQ]; rfl

/-- The keystream loop started at counter `i` on a state that represents the state after the steps
before `i` of a run from `s0`. -/
theorem gen_eq (s0 : HC128.St) : ∀ (n i : Nat) (cs : State), R cs (Spec.HC128.stateAt s0 i) →
    R (gen n i cs).1 (Spec.HC128.stateAt s0 (i + n)) ∧
    (gen n i cs).2 = (List.range n).map
      (fun k => (Spec.HC128.step (Spec.HC128.stateAt s0 (i + k)) (i + k)).2) := by
  intro n
  induction n with
  | zero => intro i cs h; exact ⟨h, rfl⟩
  | succ n ih =>
    intro i cs h
    obtain ⟨h1, h2⟩ := step_eq h i
    obtain ⟨j1, j2⟩ := ih (i + 1) (step cs i).1 h1
    refine ⟨?_, ?_⟩
    · rw [gen]; rw [Nat.add_right_comm] at j1; exact j1
    · rw [gen]
      simp only [j2, h2, List.range_succ_eq_map, List.map_cons, List.map_map, Nat.add_zero]
      congr 1
      apply List.map_congr_left
      intro k _
      simp only [Function.comp, Nat.succ_eq_add_one, Nat.add_assoc, Nat.add_comm 1]

theorem gen_length : ∀ (n i : Nat) (cs : State), (gen n i cs).2.length = n := by
  intro n
  induction n with
  | zero => intro _ _; rfl
  | succ n ih => intro i cs; simp [gen, ih]

/-! ### Initialisation -/

theorem getD_reverse (l : List U32) (k : Nat) (hk : k < l.length) :
    l.reverse.getD k 0 = l.getD (l.length - 1 - k) 0 := by
  rw [List.getD_eq_getElem?_getD, List.getD_eq_getElem?_getD, List.getElem?_reverse hk]

theorem expand_eq (key iv : List U8) : ∀ (n i : Nat) (w : List U32), 16 ≤ i → w.length = i →
    (∀ k, k < i → w.getD k 0 = Spec.HC128.W key iv (i - 1 - k)) →
    (expand n i w).length = i + n ∧
    ∀ k, k < i + n → (expand n i w).getD k 0 = Spec.HC128.W key iv (i + n - 1 - k) := by
  intro n
  induction n with
  | zero => intro i w _ hl h; exact ⟨hl, h⟩
  | succ n ih =>
    intro i w hi hl h
    have e : i + (n + 1) = (i + 1) + n := by omega
    rw [expand, e]
    apply ih (i + 1) _ (by omega) (by simp [hl])
    intro k hk
    cases k with
    | succ k =>
      rw [List.getD_cons_succ, h k (by omega)]
      congr 1; omega
    | zero =>
      rw [List.getD_cons_zero, h 1 (by omega), h 6 (by omega), h 14 (by omega), h 15 (by omega)]
      conv => rhs; rw [Spec.HC128.W]
      rw [if_neg (by omega), if_neg (by omega), dif_pos (by omega), f1_eq, f2_eq]
      have e1 : i - 1 - 1 = i + 1 - 1 - 0 - 2 := by omega
      have e2 : i - 1 - 6 = i + 1 - 1 - 0 - 7 := by omega
      have e3 : i - 1 - 14 = i + 1 - 1 - 0 - 15 := by omega
      have e4 : i - 1 - 15 = i + 1 - 1 - 0 - 16 := by omega
      rw [e1, e2, e3, e4]; rfl

theorem words4 {bs : List U8} (h : bs.length = 16) :
    ∃ a b c d, bytesToWordsLE bs = [a, b, c, d] := by
  match bs, h with
  | [a0, a1, a2, a3, b0, b1, b2, b3, c0, c1, c2, c3, d0, d1, d2, d3], _ => exact ⟨_, _, _, _, rfl⟩

theorem wArray_eq {key iv : List U8} (hk : key.length = 16) (hv : iv.length = 16) {i : Nat}
    (hi : i < 1280) : (wArray key iv).getD i 0 = Spec.HC128.W key iv i := by
  obtain ⟨a, b, c, d, e1⟩ := words4 hk
  obtain ⟨a', b', c', d', e2⟩ := words4 hv
  have base : ∀ k, k < 16 →
      ([a, b, c, d] ++ [a, b, c, d] ++ [a', b', c', d'] ++ [a', b', c', d']).reverse.getD k 0 =
      Spec.HC128.W key iv (16 - 1 - k) := by
    intro k hk
    rw [Spec.HC128.W, e1, e2]
    match k, hk with
    | 0, _ => rfl
    | 1, _ => rfl
    | 2, _ => rfl
    | 3, _ => rfl
    | 4, _ => rfl
    | 5, _ => rfl
    | 6, _ => rfl
    | 7, _ => rfl
    | 8, _ => rfl
    | 9, _ => rfl
    | 10, _ => rfl
    | 11, _ => rfl
    | 12, _ => rfl
    | 13, _ => rfl
    | 14, _ => rfl
    | 15, _ => rfl
    | n + 16, h => exact absurd h (by omega)
  have main : ∀ (n i : Nat), i < 16 + n →
      (expand n 16 ([a, b, c, d] ++ [a, b, c, d] ++ [a', b', c', d'] ++
        [a', b', c', d']).reverse).reverse.getD i 0 = Spec.HC128.W key iv i := by
    intro n i hi
    obtain ⟨hl, hg⟩ := expand_eq key iv n 16 _ (Nat.le_refl _) (by simp) base
    rw [getD_reverse _ _ (by rw [hl]; omega), hg _ (by rw [hl]; omega), hl]
    congr 1; omega
  have := main 1264 i hi
  rw [← e1, ← e2] at this
  exact this

theorem mixP_eq (s0 : HC128.St) : ∀ (n i : Nat) (cs : State), i + n ≤ 512 →
    R cs (Spec.HC128.initP i s0) → R (mixP n i cs) (Spec.HC128.initP (i + n) s0) := by
  intro n
  induction n with
  | zero => intro i cs _ h; exact h
  | succ n ih =>
    intro i cs hi h
    rw [mixP, dif_pos (by omega)]
    have e : i + (n + 1) = (i + 1) + n := by omega
    rw [e]
    apply ih (i + 1) _ (by omega)
    have hv := feed_eq h.1 g1_eq ⟨i, by omega⟩
    have hw := h_eq h.2 (cs.P.get (back i 12))
    rw [h.1] at hw
    have hx := congr (congrArg (· ^^^ ·) hv) hw
    refine ⟨set_eq h.1 i (by omega) ?_, h.2⟩
    rw [h.1]
    exact hx

theorem mixQ_eq (s0 : HC128.St) : ∀ (n i : Nat) (cs : State), i + n ≤ 512 →
    R cs (Spec.HC128.initQ i s0) → R (mixQ n i cs) (Spec.HC128.initQ (i + n) s0) := by
  intro n
  induction n with
  | zero => intro i cs _ h; exact h
  | succ n ih =>
    intro i cs hi h
    rw [mixQ, dif_pos (by omega)]
    have e : i + (n + 1) = (i + 1) + n := by omega
    rw [e]
    apply ih (i + 1) _ (by omega)
    have hv := feed_eq h.2 g2_eq ⟨i, by omega⟩
    have hw := h_eq h.1 (cs.Q.get (back i 12))
    rw [h.2] at hw
    have hx := congr (congrArg (· ^^^ ·) hv) hw
    refine ⟨h.1, set_eq h.2 i (by omega) ?_⟩
    rw [h.2]
    exact hx

theorem init_eq {key iv : List U8} (hk : key.length = 16) (hv : iv.length = 16) :
    R (init key iv) (Spec.HC128.initial key iv) := by
  have h0 : R { P := Vector.ofFn fun i => (wArray key iv).getD (i + 256) 0
                Q := Vector.ofFn fun i => (wArray key iv).getD (i + 768) 0 }
      (Spec.HC128.table0 key iv) := by
    have e : ∀ (V : Table) (i : Fin 512), V.get i = V[i.val] := fun V i => rfl
    constructor
    · intro i
      rw [e, Vector.getElem_ofFn, wArray_eq hk hv (by omega)]; rfl
    · intro i
      rw [e, Vector.getElem_ofFn, wArray_eq hk hv (by omega)]; rfl
  have h1 := mixP_eq (Spec.HC128.table0 key iv) 512 0 _ (by omega) h0
  have h2 := mixQ_eq (Spec.HC128.initP (0 + 512) (Spec.HC128.table0 key iv)) 512 0 _ (by omega) h1
  exact h2

/-! ### Packets -/

/-- Keystream bytes a packet of `n` bytes is encrypted with. -/
def pktKs (cs : State) (n : Nat) : List U8 := (wordsToBytesLE (gen ((n + 3) / 4) 0 cs).2).take n

/-- State after a packet of `n` bytes. -/
def pktNext (cs : State) (n : Nat) : State := (gen ((n + 3) / 4) 0 cs).1

theorem pktKs_length (cs : State) (n : Nat) : (pktKs cs n).length = n := by
  rw [pktKs, List.length_take, wordsToBytesLE_length, gen_length]; omega

theorem processPacket_eq (cs : State) {io : Io} {n : Nat} (hn : n ≤ 2 ^ 33 - 8) (hf : io.Fits n) :
    processPacket cs io n = .ok (pktNext cs n, io.xored (pktKs cs n)) := by
  rw [processPacket]
  by_cases h0 : n < 1
  · have : n = 0 := by omega
    subst this
    simp [pktNext, pktKs, gen, Io.xored_nil]
  · rw [if_neg h0, if_neg (by omega)]
    have e : (n - 1) / 4 + 1 = (n + 3) / 4 := by omega
    rw [e]
    have := Io.loops_xored (gen ((n + 3) / 4) 0 cs).2 (io := io)
      (n + 1) n 0 0 [] rfl (by omega) (by rw [gen_length]; omega) (hf.mono (by omega))
    rw [Io.xored_nil] at this
    simp only [List.nil_append, Nat.mul_zero, List.drop_zero] at this
    cases hw : Io.wordLoop (gen ((n + 3) / 4) 0 cs).2 (n + 1) n 0 0 io with
    | ub w => rw [hw] at this; cases this
    | ok v =>
      rw [hw] at this
      simp only [hw, Res.ok_bind] at this ⊢
      rw [this]
      rfl

theorem isStream : IsStream processPacket (fun _ => True) (fun n => n ≤ 2 ^ 33 - 8) pktKs pktNext :=
  fun s n _ hn => ⟨trivial, pktKs_length s n, fun _ hf => processPacket_eq s hn hf⟩

/-- The keystream loop in two parts. -/
theorem gen_add (m n i : Nat) (cs : State) :
    gen (m + n) i cs = ((gen n (i + m) (gen m i cs).1).1, (gen m i cs).2 ++ (gen n (i + m) (gen m i cs).1).2) := by
  induction m generalizing i cs with
  | zero => simp [gen]
  | succ m ih =>
    rw [Nat.add_right_comm, gen, ih]
    simp [gen, Nat.add_assoc, Nat.add_comm 1]

theorem step_mod (cs : State) (i k : Nat) : step cs (i + 1024 * k) = step cs i := by
  have e1 : (i + 1024 * k) % 512 = i % 512 := by omega
  have e2 : (i + 1024 * k) % 1024 = i % 1024 := by omega
  simp only [step, e1, e2]

/-- The loop only depends on the counter modulo 1024. -/
theorem gen_mod (n i k : Nat) (cs : State) : gen n (i + 1024 * k) cs = gen n i cs := by
  induction n generalizing i cs with
  | zero => rfl
  | succ n ih => rw [gen, gen, step_mod, Nat.add_right_comm, ih]

end CT.HC128
