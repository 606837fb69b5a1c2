import Verif.Proof.HC128

/-!
# Evaluating HC-128 inside the kernel

The initialisation performs 2288 table steps.  To let the kernel evaluate it on a concrete key, the
tables are packed into one natural number each (the kernel's natural numbers are machine integers)
and every step forces its result.  The packed version is proved equal to the model; it is only
used to evaluate witnesses.
-/

namespace CT.HC128.Fast

/-- Evaluate the number before passing it on. -/
def strict {α : Type} (n : Nat) (f : Nat → α) : α := Nat.rec (f 0) (fun m _ => f (m + 1)) n

theorem strict_eq {α : Type} (n : Nat) (f : Nat → α) : strict n f = f n := by cases n <;> rfl

/-- Entry `i` of a packed table. -/
def get (T i : Nat) : U32 := BitVec.ofNat 32 (T >>> (32 * i))

/-- Replace entry `i` of a packed table. -/
def set (T i : Nat) (v : U32) : Nat := T ^^^ ((get T i ^^^ v).toNat <<< (32 * i))

theorem get_bit (T i b : Nat) (hb : b < 32) : (get T i).getLsbD b = T.testBit (32 * i + b) := by
  simp only [get, BitVec.getLsbD_ofNat, hb, decide_true, Bool.true_and, Nat.testBit_shiftRight]

theorem get_set (T i j : Nat) (v : U32) : get (set T i v) j = if i = j then v else get T j := by
  apply BitVec.eq_of_getLsbD_eq
  intro b hb
  rw [get_bit _ _ _ hb, set, Nat.testBit_xor, Nat.testBit_shiftLeft]
  split
  · rename_i h; subst h
    have e : 32 * i + b - 32 * i = b := by omega
    rw [e]
    have : (get T i ^^^ v).toNat.testBit b = (get T i ^^^ v).getLsbD b := rfl
    rw [this, BitVec.getLsbD_xor, get_bit _ _ _ hb]
    simp
  · rename_i h
    rw [get_bit _ _ _ hb]
    by_cases hij : 32 * j + b ≥ 32 * i
    · have : ((get T i ^^^ v).toNat).testBit (32 * j + b - 32 * i) = false := by
        apply Nat.testBit_lt_two_pow
        have h1 := (get T i ^^^ v).isLt
        have h2 : 2 ^ 32 ≤ 2 ^ (32 * j + b - 32 * i) := Nat.pow_le_pow_right (by decide) (by omega)
        omega
      rw [this]; simp
    · simp [hij]

/-- Packed table for a list of entries. -/
def pack : List U32 → Nat
  | [] => 0
  | w :: ws => strict (pack ws) fun t => w.toNat ||| (t <<< 32)

theorem get_pack (l : List U32) (i : Nat) : get (pack l) i = l.getD i 0 := by
  induction l generalizing i with
  | nil => simp [pack, get]
  | cons w ws ih =>
    apply BitVec.eq_of_getLsbD_eq
    intro b hb
    rw [get_bit _ _ _ hb, pack, strict_eq, Nat.testBit_or, Nat.testBit_shiftLeft]
    cases i with
    | zero =>
      simp only [Nat.mul_zero, Nat.zero_add, List.getD_cons_zero]
      have : ¬ b ≥ 32 := by omega
      simp only [this, decide_false, Bool.false_and, Bool.or_false]; rfl
    | succ i =>
      rw [List.getD_cons_succ, ← ih i, get_bit _ _ _ hb]
      have h1 : w.toNat.testBit (32 * (i + 1) + b) = false := by
        apply Nat.testBit_lt_two_pow
        have h1 := w.isLt
        have h2 : 2 ^ 32 ≤ 2 ^ (32 * (i + 1) + b) := Nat.pow_le_pow_right (by decide) (by omega)
        omega
      have e : 32 * (i + 1) + b - 32 = 32 * i + b := by omega
      have h2 : 32 * (i + 1) + b ≥ 32 := by omega
      rw [h1, e]; simp [h2]

/-- The packed number represents the table. -/
def Rep (T : Nat) (V : Table) : Prop := ∀ i : Fin 512, get T i = V.get i

theorem rep_set {T : Nat} {V : Table} (h : Rep T V) (j : Nat) (hj : j < 512) {v w : U32} (hv : v = w) :
    Rep (set T j v) (V.set j w hj) := by
  intro i
  have e : ∀ (V : Table) (i : Fin 512), V.get i = V[i.val] := fun V i => rfl
  rw [get_set, e, Vector.getElem_set, ← e V i, ← h i, hv]

def hP (T : Nat) (x : U32) : U32 := get T (lowIdx x) + get T (highIdx x)

theorem hP_eq {T : Nat} {V : Table} (h : Rep T V) (x : U32) : hP T x = HC128.h V x := by
  simp [hP, HC128.h, h _]

def bk (j k : Nat) : Nat := (j + 512 - k) % 512

def feedP (g : U32 → U32 → U32 → U32) (T j : Nat) : U32 :=
  get T j + g (get T (bk j 3)) (get T (bk j 10)) (get T (bk j 511))

theorem feedP_eq {T : Nat} {V : Table} (h : Rep T V) (g : U32 → U32 → U32 → U32) (j : Fin 512) :
    feedP g T j = feed g V j := by
  simp only [feedP, feed, ← h _]; rfl

/-- Stage 3 on packed tables: new values for `T` from itself and the other table `O`. -/
def mix (g : U32 → U32 → U32 → U32) (O : Nat) : Nat → Nat → Nat → Nat
  | 0, _, T => T
  | n + 1, i, T =>
    strict (set T i (feedP g T i ^^^ hP O (get T (bk i 12)))) fun T => mix g O n (i + 1) T

theorem mixP_rep : ∀ (n i : Nat) (cs : State) (P Q : Nat), i + n ≤ 512 → Rep P cs.P → Rep Q cs.Q →
    Rep (mix g1 Q n i P) (mixP n i cs).P ∧ Rep Q (mixP n i cs).Q := by
  intro n
  induction n with
  | zero => intro i cs P Q _ h1 h2; exact ⟨h1, h2⟩
  | succ n ih =>
    intro i cs P Q hi h1 h2
    have hi' : i < 512 := by omega
    rw [mix, strict_eq, mixP, dif_pos hi']
    refine ih (i + 1) ⟨_, _⟩ _ _ (by omega) ?_ h2
    refine rep_set h1 i hi' ?_
    rw [hP_eq h2, ← h1 (back i 12), ← feedP_eq h1 g1 ⟨i, hi'⟩]; rfl

theorem mixQ_rep : ∀ (n i : Nat) (cs : State) (P Q : Nat), i + n ≤ 512 → Rep P cs.P → Rep Q cs.Q →
    Rep P (mixQ n i cs).P ∧ Rep (mix g2 P n i Q) (mixQ n i cs).Q := by
  intro n
  induction n with
  | zero => intro i cs P Q _ h1 h2; exact ⟨h1, h2⟩
  | succ n ih =>
    intro i cs P Q hi h1 h2
    have hi' : i < 512 := by omega
    rw [mix, strict_eq, mixQ, dif_pos hi']
    refine ih (i + 1) ⟨_, _⟩ _ _ (by omega) h1 ?_
    refine rep_set h2 i hi' ?_
    rw [hP_eq h1, ← h2 (back i 12), ← feedP_eq h2 g2 ⟨i, hi'⟩]; rfl

/-- Stage 1 with forced words. -/
def expandF : Nat → Nat → List U32 → List U32
  | 0, _, w => w
  | n + 1, i, w =>
    strict (f2 (w.getD 1 0) + w.getD 6 0 + f1 (w.getD 14 0) + w.getD 15 0 + BitVec.ofNat 32 i).toNat
      fun v => expandF n (i + 1) (BitVec.ofNat 32 v :: w)

theorem expandF_eq (n i : Nat) (w : List U32) : expandF n i w = expand n i w := by
  induction n generalizing i w with
  | zero => rfl
  | succ n ih => rw [expandF, strict_eq, ih, expand, BitVec.ofNat_toNat, BitVec.setWidth_eq]

/-- Packed tables after initialisation, passed on. -/
def initF {α : Type} (key iv : List U8) (f : Nat → Nat → α) : α :=
  let k := bytesToWordsLE key
  let v := bytesToWordsLE iv
  let w := (expandF 1264 16 (k ++ k ++ v ++ v).reverse).reverse
  strict (pack (w.drop 256)) fun P0 => strict (pack (w.drop 768)) fun Q0 =>
  strict (mix g1 Q0 512 0 P0) fun P => strict (mix g2 P 512 0 Q0) fun Q => f P Q

theorem initF_rep (key iv : List U8) : ∃ P Q, Rep P (init key iv).P ∧ Rep Q (init key iv).Q ∧
    ∀ {α : Type} (f : Nat → Nat → α), initF key iv f = f P Q := by
  have hw : (expandF 1264 16 (bytesToWordsLE key ++ bytesToWordsLE key ++ bytesToWordsLE iv ++
      bytesToWordsLE iv).reverse).reverse = wArray key iv := by rw [expandF_eq]; rfl
  have e : ∀ (V : Table) (i : Fin 512), V.get i = V[i.val] := fun V i => rfl
  have hP0 : Rep (pack ((wArray key iv).drop 256)) (Vector.ofFn fun i => (wArray key iv).getD (i + 256) 0) := by
    intro i
    rw [get_pack, e, Vector.getElem_ofFn, List.getD_eq_getElem?_getD, List.getElem?_drop,
      List.getD_eq_getElem?_getD, Nat.add_comm]
  have hQ0 : Rep (pack ((wArray key iv).drop 768)) (Vector.ofFn fun i => (wArray key iv).getD (i + 768) 0) := by
    intro i
    rw [get_pack, e, Vector.getElem_ofFn, List.getD_eq_getElem?_getD, List.getElem?_drop,
      List.getD_eq_getElem?_getD, Nat.add_comm]
  have h1 := mixP_rep 512 0 ⟨_, _⟩ _ _ (by omega) hP0 hQ0
  have h2 := mixQ_rep 512 0 _ _ _ (by omega) h1.1 h1.2
  refine ⟨_, _, h2.1, h2.2, ?_⟩
  intro α f
  simp only [initF, hw, strict_eq]

/-- The step of the keystream generator for a counter below 512, on packed tables. -/
def stepF (P Q i : Nat) : Nat × U32 :=
  let P' := set P i (feedP g1 P i)
  (P', hP Q (get P' (bk i 12)) ^^^ get P' i)

theorem stepF_eq {P Q : Nat} {cs : State} (hp : Rep P cs.P) (hq : Rep Q cs.Q) {i : Nat} (hi : i < 512) :
    Rep (stepF P Q i).1 (step cs i).1.P ∧ Rep Q (step cs i).1.Q ∧ (stepF P Q i).2 = (step cs i).2 := by
  have h1 : i % 512 = i := Nat.mod_eq_of_lt hi
  have h2 : i % 1024 < 512 := by omega
  simp only [step, if_pos h2, h1, stepF]
  have hr := rep_set hp i hi (feedP_eq hp g1 ⟨i, hi⟩)
  refine ⟨hr, hq, ?_⟩
  rw [hP_eq hq, ← hr (back i 12), ← hr ⟨i, hi⟩]; rfl

/-- Checks of the first keystream words: the first two words of one packet are `a` and `b`, and
after a packet of one word the next packet starts with `c`. -/
def firstWords (a b c : U32) (P Q : Nat) : Bool :=
  let s0 := stepF P Q 0
  let s1 := stepF s0.1 Q 1
  let s2 := stepF s0.1 Q 0
  Nat.beq s0.2.toNat a.toNat && (Nat.beq s1.2.toNat b.toNat && Nat.beq s2.2.toNat c.toNat)

theorem firstWords_spec {key iv : List U8} {a b c : U32} (h : initF key iv (firstWords a b c) = true) :
    (gen 2 0 (init key iv)).2 = [a, b] ∧ (gen 1 0 (init key iv)).2 = [a] ∧
      (gen 1 0 (gen 1 0 (init key iv)).1).2 = [c] := by
  obtain ⟨P, Q, hp, hq, e⟩ := initF_rep key iv
  rw [e, firstWords, Bool.and_eq_true, Bool.and_eq_true, Nat.beq_eq, Nat.beq_eq, Nat.beq_eq] at h
  obtain ⟨ha, hb, hc⟩ := h
  have t0 := stepF_eq hp hq (i := 0) (by omega)
  have t1 := stepF_eq t0.1 t0.2.1 (i := 1) (by omega)
  have t2 := stepF_eq t0.1 t0.2.1 (i := 0) (by omega)
  have ea := BitVec.eq_of_toNat_eq ha
  have eb := BitVec.eq_of_toNat_eq hb
  have ec := BitVec.eq_of_toNat_eq hc
  simp only [gen, ← t0.2.2, ← t1.2.2, ← t2.2.2, ea, eb, ec, Nat.zero_add, and_self]

set_option maxRecDepth 10000 in
/-- The all-zero key and IV. -/
theorem zero_key_words :
    initF (List.replicate 16 0) (List.replicate 16 0) (firstWords 0x73150082 0x3bfd03a0 0x8054b52c) = true := by
  decide +kernel

end CT.HC128.Fast
