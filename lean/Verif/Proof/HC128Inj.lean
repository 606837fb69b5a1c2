import Verif.Proof.HC128
import Verif.Basic.Lockstep

/-!
# HC-128 never merges states

Every update adds to one entry of a table a value that does not depend on that entry.
-/

namespace CT.HC128

theorem get_set (T : Table) (j : Nat) (hj : j < 512) (v : U32) (k : Fin 512) :
    (T.set j v hj).get k = if k.val = j then v else T.get k := by
  have e : ∀ (V : Table) (i : Fin 512), V.get i = V[i.val] := fun V i => rfl
  rw [e, e, Vector.getElem_set]
  split <;> split <;> first | rfl | omega

theorem get_ext {S T : Table} (h : ∀ i : Fin 512, S.get i = T.get i) : S = T := by
  apply Vector.ext
  intro i hi
  exact h ⟨i, hi⟩

/-- Tables that agree off `j` agree at `back j k` for `k` not a multiple of 512. -/
theorem back_ne (j k : Nat) (hj : j < 512) (h0 : 0 < k) (hk : k < 512) : (back j k).val ≠ j := by
  simp only [back]
  omega

/-- Two tables whose updates at `j` agree are equal, if the updates add something read elsewhere. -/
theorem set_inj {S T : Table} (g : U32 → U32 → U32 → U32) (y : U32 → U32) (j : Nat) (hj : j < 512)
    (h : S.set j (feed g S ⟨j, hj⟩ ^^^ y (S.get (back j 12))) hj = T.set j (feed g T ⟨j, hj⟩ ^^^ y (T.get (back j 12))) hj) :
    S = T := by
  have off : ∀ k : Fin 512, k.val ≠ j → S.get k = T.get k := by
    intro k hk
    have := congrArg (fun V : Table => V.get k) h
    simpa only [get_set, if_neg hk] using this
  have at_j : feed g S ⟨j, hj⟩ ^^^ y (S.get (back j 12)) = feed g T ⟨j, hj⟩ ^^^ y (T.get (back j 12)) := by
    have := congrArg (fun V : Table => V.get ⟨j, hj⟩) h
    simpa only [get_set, if_true] using this
  rw [off _ (back_ne j 12 hj (by omega) (by omega)), BitVec.xor_left_inj, feed, feed,
    off _ (back_ne j 3 hj (by omega) (by omega)), off _ (back_ne j 10 hj (by omega) (by omega)),
    off _ (back_ne j 511 hj (by omega) (by omega)), BitVec.add_left_inj] at at_j
  apply get_ext
  intro i
  by_cases hi : i.val = j
  · have : i = ⟨j, hj⟩ := Fin.ext hi
    rw [this, at_j]
  · exact off i hi

theorem step_inj {a b : State} (i : Nat) (h : (step a i).1 = (step b i).1) : a = b := by
  obtain ⟨P, Q⟩ := a
  obtain ⟨P', Q'⟩ := b
  have hj : i % 512 < 512 := Nat.mod_lt _ (by decide)
  by_cases hi : i % 1024 < 512
  · simp only [step, hi, if_true, State.mk.injEq] at h
    obtain ⟨h1, h2⟩ := h
    have : P = P' := by
      apply set_inj g1 (fun _ => 0#32) (i % 512) hj
      simpa only [BitVec.xor_zero] using h1
    rw [this, h2]
  · simp only [step, hi, if_false, State.mk.injEq] at h
    obtain ⟨h1, h2⟩ := h
    have : Q = Q' := by
      apply set_inj g2 (fun _ => 0#32) (i % 512) hj
      simpa only [BitVec.xor_zero] using h2
    rw [this, h1]

theorem gen_inj (n : Nat) : ∀ (i : Nat) (a b : State), (gen n i a).1 = (gen n i b).1 → a = b := by
  induction n with
  | zero => intro i a b h; exact h
  | succ n ih => intro i a b h; exact step_inj i (ih _ _ _ h)

theorem mixP_inj (n : Nat) : ∀ (i : Nat) (a b : State), i + n ≤ 512 → mixP n i a = mixP n i b → a = b := by
  induction n with
  | zero => intro i a b _ h; exact h
  | succ n ih =>
    intro i a b hi h
    obtain ⟨P, Q⟩ := a
    obtain ⟨P', Q'⟩ := b
    have hj : i < 512 := by omega
    rw [mixP, mixP, dif_pos hj, dif_pos hj] at h
    have := ih _ _ _ (by omega) h
    simp only [State.mk.injEq] at this
    obtain ⟨h1, h2⟩ := this
    subst h2
    rw [set_inj g1 (HC128.h Q) i hj h1]

theorem mixQ_inj (n : Nat) : ∀ (i : Nat) (a b : State), i + n ≤ 512 → mixQ n i a = mixQ n i b → a = b := by
  induction n with
  | zero => intro i a b _ h; exact h
  | succ n ih =>
    intro i a b hi h
    obtain ⟨P, Q⟩ := a
    obtain ⟨P', Q'⟩ := b
    have hj : i < 512 := by omega
    rw [mixQ, mixQ, dif_pos hj, dif_pos hj] at h
    have := ih _ _ _ (by omega) h
    simp only [State.mk.injEq] at this
    obtain ⟨h1, h2⟩ := this
    subst h1
    rw [set_inj g2 (HC128.h P) i hj h2]

/-- The recurrence can be run backwards. -/
theorem W_back {k v k' v' : List U8} (h : ∀ i, 256 ≤ i → i < 1280 → Spec.HC128.W k v i = Spec.HC128.W k' v' i) :
    ∀ d, d ≤ 256 → ∀ i, 256 - d ≤ i → i < 1280 → Spec.HC128.W k v i = Spec.HC128.W k' v' i := by
  intro d
  induction d with
  | zero => intro _ i h1 h2; exact h i (by omega) h2
  | succ d ih =>
    intro hd i h1 h2
    by_cases hi : 256 - d ≤ i
    · exact ih (by omega) i hi h2
    · have e := ih (by omega) (i + 16) (by omega) (by omega)
      rw [Spec.HC128.W, Spec.HC128.W.eq_def k'] at e
      rw [if_neg (by omega), if_neg (by omega), dif_pos (by omega), if_neg (by omega), if_neg (by omega),
        dif_pos (by omega), ih (by omega) (i + 16 - 2) (by omega) (by omega),
        ih (by omega) (i + 16 - 7) (by omega) (by omega), ih (by omega) (i + 16 - 15) (by omega) (by omega),
        BitVec.add_left_inj, BitVec.add_right_inj, show i + 16 - 16 = i by omega] at e
      exact e

theorem words_of_W {b b' : List U8} (hb : b.length = 16) (hb' : b'.length = 16)
    (h : ∀ i < 4, (bytesToWordsLE b).getD i 0 = (bytesToWordsLE b').getD i 0) : b = b' := by
  obtain ⟨x0, x1, x2, x3, e⟩ := words4 hb
  obtain ⟨y0, y1, y2, y3, e'⟩ := words4 hb'
  have h0 := h 0 (by omega)
  have h1 := h 1 (by omega)
  have h2 := h 2 (by omega)
  have h3 := h 3 (by omega)
  rw [e, e'] at h0 h1 h2 h3
  simp only [List.getD_cons_zero, List.getD_cons_succ] at h0 h1 h2 h3
  rw [← wordsToBytesLE_bytesToWordsLE 4 b hb, ← wordsToBytesLE_bytesToWordsLE 4 b' hb', e, e', h0, h1, h2, h3]

theorem W_key (k v : List U8) {i : Nat} (hi : i < 4) : Spec.HC128.W k v i = (bytesToWordsLE k).getD i 0 := by
  rw [Spec.HC128.W, if_pos (by omega), Nat.mod_eq_of_lt hi]

theorem W_iv (k v : List U8) {i : Nat} (hi : i < 4) : Spec.HC128.W k v (i + 8) = (bytesToWordsLE v).getD i 0 := by
  rw [Spec.HC128.W, if_neg (by omega), if_pos (by omega), show (i + 8) % 4 = i by omega]

theorem ofFn_eq {f g : Nat → U32} {c : Nat} (h : (Vector.ofFn fun i : Fin 512 => f (i.val + c)) = Vector.ofFn fun i : Fin 512 => g (i.val + c))
    (i : Nat) (h1 : c ≤ i) (h2 : i < 512 + c) : f i = g i := by
  have e : ∀ (V : Table) (i : Fin 512), V.get i = V[i.val] := fun V i => rfl
  have := congrArg (fun V : Table => V.get ⟨i - c, by omega⟩) h
  rw [e, e, Vector.getElem_ofFn, Vector.getElem_ofFn, show i - c + c = i by omega] at this
  exact this

theorem init_inj {k v k' v' : List U8} (hk : k.length = 16) (hv : v.length = 16) (hk' : k'.length = 16)
    (hv' : v'.length = 16) (h : init k v = init k' v') : k = k' ∧ v = v' := by
  have h1 := mixP_inj 512 0 _ _ (by omega) (mixQ_inj 512 0 _ _ (by omega) h)
  simp only [State.mk.injEq] at h1
  obtain ⟨hP, hQ⟩ := h1
  have hw : ∀ i, 256 ≤ i → i < 1280 → Spec.HC128.W k v i = Spec.HC128.W k' v' i := by
    intro i h1 h2
    rw [← wArray_eq hk hv h2, ← wArray_eq hk' hv' h2]
    by_cases hi : i < 768
    · exact ofFn_eq (f := fun i => (wArray k v).getD i 0) (g := fun i => (wArray k' v').getD i 0) hP i (by omega) (by omega)
    · exact ofFn_eq (f := fun i => (wArray k v).getD i 0) (g := fun i => (wArray k' v').getD i 0) hQ i (by omega) (by omega)
  have hall := W_back hw 256 (by omega)
  constructor
  · apply words_of_W hk hk'
    intro i hi
    rw [← W_key k v hi, ← W_key k' v' hi]
    exact hall i (by omega) (by omega)
  · apply words_of_W hv hv'
    intro i hi
    rw [← W_iv k v hi, ← W_iv k' v' hi]
    exact hall (i + 8) (by omega) (by omega)

theorem runAll_inj {a b : State} : ∀ (ps qs : List (List U8)), ps.map List.length = qs.map List.length →
    (∀ p ∈ ps, p.length ≤ 2 ^ 33 - 8) → ∀ (s : State) (cs ds : List (List U8)),
    runAll processPacket a ps = .ok (s, cs) → runAll processPacket b qs = .ok (s, ds) → a = b := by
  intro ps
  induction ps generalizing a b with
  | nil =>
    intro qs hl _ s cs ds h1 h2
    cases qs with
    | cons q qs => simp at hl
    | nil =>
      simp only [runAll, Res.ok_inj, Prod.mk.injEq] at h1 h2
      rw [h1.1, h2.1]
  | cons p ps ih =>
    intro qs hl hp s cs ds h1 h2
    cases qs with
    | nil => simp at hl
    | cons q qs =>
      simp only [List.map_cons, List.cons.injEq] at hl
      have hpl := hp p (by simp)
      simp only [runAll, isStream.single p trivial hpl, Res.ok_bind] at h1
      simp only [runAll, isStream.single q trivial (by rw [← hl.1]; exact hpl), Res.ok_bind] at h2
      obtain ⟨r1, e1, h1⟩ := Res.bind_eq_ok h1
      obtain ⟨r2, e2, h2⟩ := Res.bind_eq_ok h2
      have f1 : r1.1 = s := congrArg Prod.fst (Res.ok_inj.mp h1)
      have f2 : r2.1 = s := congrArg Prod.fst (Res.ok_inj.mp h2)
      obtain ⟨r1s, r1o⟩ := r1
      obtain ⟨r2s, r2o⟩ := r2
      simp only at f1 f2
      subst f1
      subst f2
      have := ih qs hl.2 (fun x hx => hp x (by simp [hx])) _ _ _ e1 e2
      rw [pktNext, pktNext, ← hl.1] at this
      exact gen_inj _ _ _ _ this

end CT.HC128
