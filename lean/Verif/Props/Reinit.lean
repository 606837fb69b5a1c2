import Verif.Model.Reinit
import Verif.Proof.ChaCha
import Verif.Proof.Serpent

/-!
# Initialising an object again

Whatever an object contained, after initialisation it is as a fresh one: no assignment is missing and none depends on what
was there, neither in the object nor in the local arrays.
-/

namespace CT.Props.Reinit

/-! ### Arrays -/

theorem set_take_succ {α : Type} (a : List α) (i : Nat) (v : α) (h : i < a.length) : (a.set i v).take (i + 1) = a.take i ++ [v] := by
  rw [List.take_add_one, List.take_set_of_le (Nat.le_refl i), List.getElem?_set_self h]
  rfl

theorem set_drop_succ {α : Type} (a : List α) (i k : Nat) (v : α) (h : i < k) : (a.set i v).drop k = a.drop k :=
  List.drop_set_of_lt h

theorem copyTo_eq {α : Type} (i : Nat) (xs a : List α) (h : i + xs.length ≤ a.length) :
    copyTo i xs a = a.take i ++ xs ++ a.drop (i + xs.length) := by
  induction xs generalizing i a with
  | nil => simp [copyTo]
  | cons x xs ih =>
    simp only [List.length_cons] at h
    rw [copyTo, ih _ _ (by rw [List.length_set]; omega), set_take_succ _ _ _ (by omega), set_drop_succ _ _ _ _ (by omega)]
    simp [Nat.add_assoc, Nat.add_comm 1]

theorem getD_take {α : Type} (a : List α) (i j : Nat) (d : α) (h : j < i) : (a.take i).getD j d = a.getD j d := by
  rw [List.getD_eq_getElem?_getD, List.getD_eq_getElem?_getD, List.getElem?_take_of_lt h]

/-- The same loop on a list that grows. -/
def grow (f : Nat → List U32 → U32) : Nat → Nat → List U32 → List U32
  | 0, _, a => a
  | n + 1, i, a => grow f n (i + 1) (a ++ [f i a])

theorem fillFrom_eq (f : Nat → List U32 → U32) (lo : Nat) (hf : ∀ i a, lo ≤ i → f i (a.take i) = f i a) (n i : Nat) (a : List U32)
    (hi : lo ≤ i) (h : i + n ≤ a.length) : fillFrom f n i a = grow f n i (a.take i) ++ a.drop (i + n) := by
  induction n generalizing i a with
  | zero => simp [fillFrom, grow]
  | succ n ih =>
    rw [fillFrom, ih _ _ (by omega) (by rw [List.length_set]; omega), set_take_succ _ _ _ (by omega),
      set_drop_succ _ _ _ _ (by omega), grow, hf i a hi, show i + 1 + n = i + (n + 1) by omega]

theorem copyTo_append {α : Type} (i : Nat) (xs pre d : List α) (hp : pre.length = i) (h : xs.length ≤ d.length) :
    copyTo i xs (pre ++ d) = pre ++ xs ++ d.drop xs.length := by
  rw [copyTo_eq _ _ _ (by rw [List.length_append]; omega), List.take_append_of_le_length (by omega), List.take_of_length_le (by omega),
    ← hp, List.drop_append, List.drop_of_length_le (l := pre) (by omega), List.nil_append, Nat.add_sub_cancel_left]

theorem fillFrom_append (f : Nat → List U32 → U32) (lo : Nat) (hf : ∀ i a, lo ≤ i → f i (a.take i) = f i a) (n i : Nat)
    (pre d : List U32) (hi : lo ≤ i) (hp : pre.length = i) (hd : d.length = n) : fillFrom f n i (pre ++ d) = grow f n i pre := by
  rw [fillFrom_eq f lo hf n i _ hi (by rw [List.length_append]; omega), List.take_append_of_le_length (by omega),
    List.take_of_length_le (by omega), List.drop_of_length_le (l := pre ++ d) (by rw [List.length_append]; omega), List.append_nil]

/-! ### ChaCha -/

/-- **C139** for ChaCha. -/
theorem reinit_chacha (cs : ChaCha.State) (key nonce : List U8) (hk : key.length = 32) (hn : nonce.length = 12) :
    ChaCha.initFrom cs key nonce = ChaCha.init key nonce := by
  have lk := ChaCha.bytesToWordsLE_length 8 key hk
  have ln := ChaCha.bytesToWordsLE_length 3 nonce hn
  rw [ChaCha.initFrom, ChaCha.init, ChaCha.State.mk.injEq]
  apply Vector.ext
  intro i hi
  simp only [ChaCha.loadWords_get, Vector.getElem_set, lk, ln]
  by_cases h13 : 13 ≤ i ∧ i < 13 + 3
  · rw [if_pos h13, if_pos h13]
  rw [if_neg h13, if_neg h13]
  by_cases h12 : 12 = i
  · rw [if_pos h12, if_pos h12]
  rw [if_neg h12, if_neg h12]
  by_cases h4 : 4 ≤ i ∧ i < 4 + 8
  · rw [if_pos h4, if_pos h4]
  rw [if_neg h4, if_neg h4]
  have : i = 0 ∨ i = 1 ∨ i = 2 ∨ i = 3 := by omega
  rcases this with rfl | rfl | rfl | rfl <;> rfl

/-! ### HC-128 -/

theorem hc_grow (n i : Nat) (w : List U32) (hw : w.length = i) (hi : 16 ≤ i) :
    (HC128.expand n i w).reverse =
      grow (fun i W => HC128.f2 (W.getD (i - 2) 0) + W.getD (i - 7) 0 + HC128.f1 (W.getD (i - 15) 0) + W.getD (i - 16) 0 +
        BitVec.ofNat 32 i) n i w.reverse := by
  induction n generalizing i w with
  | zero => rfl
  | succ n ih =>
    have e (k : Nat) (h : k < 16) : w.reverse.getD (i - (k + 1)) 0 = w.getD k 0 := by
      rw [List.getD_eq_getElem?_getD, List.getD_eq_getElem?_getD, List.getElem?_reverse (by omega)]
      congr 2
      omega
    rw [HC128.expand, ih _ _ (by simp; omega) (by omega), grow, List.reverse_cons]
    rw [e 1 (by omega), e 6 (by omega), e 14 (by omega), e 15 (by omega)]

theorem hc_w (junk : List U32) (hj : junk.length = 1280) (key iv : List U8) (hk : key.length = 16) (hv : iv.length = 16) :
    HC128.wFrom junk key iv = HC128.wArray key iv := by
  have lk := ChaCha.bytesToWordsLE_length 4 key hk
  have lv := ChaCha.bytesToWordsLE_length 4 iv hv
  unfold HC128.wFrom HC128.wArray
  dsimp only
  generalize bytesToWordsLE key = k at lk ⊢
  generalize bytesToWordsLE iv = v at lv ⊢
  have hW : copyTo 12 v (copyTo 8 v (copyTo 4 k (copyTo 0 k junk))) = k ++ k ++ v ++ v ++ junk.drop 16 := by
    rw [copyTo_eq 0 k junk (by omega), copyTo_eq 4 k _ (by simp; omega), copyTo_eq 8 v _ (by simp; omega), copyTo_eq 12 v _ (by simp; omega)]
    match k, v, lk, lv with
    | [k0, k1, k2, k3], [v0, v1, v2, v3], _, _ => simp
  rw [hW]
  have hl : (k ++ k ++ v ++ v).length = 16 := by simp only [List.length_append]; omega
  have hd : (junk.drop 16).length = 1264 := by rw [List.length_drop]; omega
  generalize k ++ k ++ v ++ v = a at hl ⊢
  generalize junk.drop 16 = d at hd ⊢
  generalize 1264 = n at hd ⊢
  rw [fillFrom_append _ 16 (fun i a hi => by
      rw [getD_take _ _ _ _ (by omega), getD_take _ _ _ _ (by omega), getD_take _ _ _ _ (by omega), getD_take _ _ _ _ (by omega)])
      _ _ _ _ (Nat.le_refl 16) hl hd,
    hc_grow _ _ _ (by rw [List.length_reverse]; omega) (Nat.le_refl 16), List.reverse_reverse]

theorem extractFrom_get (W : List U32) (n i : Nat) (cs : HC128.State) (hi : i + n ≤ 512) (j : Nat) (hj : j < 512) :
    (HC128.extractFrom W n i cs).P[j] = (if i ≤ j ∧ j < i + n then W.getD (j + 256) 0 else cs.P[j]) ∧
    (HC128.extractFrom W n i cs).Q[j] = (if i ≤ j ∧ j < i + n then W.getD (j + 768) 0 else cs.Q[j]) := by
  induction n generalizing i cs with
  | zero =>
    rw [if_neg (by omega), if_neg (by omega)]
    exact ⟨rfl, rfl⟩
  | succ n ih =>
    rw [HC128.extractFrom]
    have h := ih (i + 1) { P := cs.P.setIfInBounds i (W.getD (i + 256) 0), Q := cs.Q.setIfInBounds i (W.getD (i + 768) 0) } (by omega)
    rw [h.1, h.2]
    dsimp only
    rw [Vector.getElem_setIfInBounds, Vector.getElem_setIfInBounds]
    by_cases e : i = j
    · subst e
      simp
    · by_cases c : i + 1 ≤ j ∧ j < i + 1 + n
      · rw [if_pos c, if_pos c, if_pos (by omega), if_pos (by omega)]
        exact ⟨rfl, rfl⟩
      · rw [if_neg c, if_neg c, if_neg e, if_neg e, if_neg (by omega), if_neg (by omega)]
        exact ⟨rfl, rfl⟩

/-- **C139** for HC-128. -/
theorem reinit_hc128 (cs : HC128.State) (junk : List U32) (hj : junk.length = 1280) (key iv : List U8) (hk : key.length = 16)
    (hv : iv.length = 16) : HC128.initFrom cs junk key iv = HC128.init key iv := by
  have h := extractFrom_get (HC128.wArray key iv) 512 0 cs (by omega)
  have e : HC128.extractFrom (HC128.wArray key iv) 512 0 cs =
      { P := Vector.ofFn fun i => (HC128.wArray key iv).getD (i + 256) 0
        Q := Vector.ofFn fun i => (HC128.wArray key iv).getD (i + 768) 0 } := by
    generalize HC128.wArray key iv = W at h ⊢
    generalize HC128.extractFrom W 512 0 cs = s at h ⊢
    obtain ⟨P, Q⟩ := s
    rw [HC128.State.mk.injEq]
    constructor
    · apply Vector.ext
      intro j hj
      rw [(h j hj).1, if_pos (by omega), Vector.getElem_ofFn]
    · apply Vector.ext
      intro j hj
      rw [(h j hj).2, if_pos (by omega), Vector.getElem_ofFn]
  rw [HC128.initFrom, hc_w junk hj key iv hk hv, e, HC128.init]

/-! ### Rabbit -/

/-- The same state with other saved registers. -/
def saved (cs : Rabbit.State) (a b : Vector U32 8) : Rabbit.State := ⟨a, b, cs.X, cs.C, cs.carry⟩

theorem counterStep_saved (cs : Rabbit.State) (a b : Vector U32 8) (j : Fin 8) :
    Rabbit.counterStep (saved cs a b) j = saved (Rabbit.counterStep cs j) a b := rfl

theorem foldl_saved (js : List (Fin 8)) (cs : Rabbit.State) (a b : Vector U32 8) :
    js.foldl Rabbit.counterStep (saved cs a b) = saved (js.foldl Rabbit.counterStep cs) a b := by
  induction js generalizing cs with
  | nil => rfl
  | cons j js ih => rw [List.foldl_cons, List.foldl_cons, counterStep_saved, ih]

theorem nextState_saved (cs : Rabbit.State) (a b : Vector U32 8) :
    Rabbit.nextState (saved cs a b) = saved (Rabbit.nextState cs) a b := rfl

theorem update_saved (cs : Rabbit.State) (a b : Vector U32 8) : Rabbit.update (saved cs a b) = saved (Rabbit.update cs) a b := by
  rw [Rabbit.update, Rabbit.counter, foldl_saved, nextState_saved, Rabbit.update, Rabbit.counter]

theorem update4_saved (cs : Rabbit.State) (a b : Vector U32 8) : Rabbit.update4 (saved cs a b) = saved (Rabbit.update4 cs) a b := by
  rw [Rabbit.update4, update_saved, update_saved, update_saved, update_saved, Rabbit.update4]

theorem vec8 (v : Vector U32 8) : ∃ a b c d e f g h, v = #v[a, b, c, d, e, f, g, h] :=
  match v with
  | ⟨⟨[a, b, c, d, e, f, g, h]⟩, _⟩ => ⟨a, b, c, d, e, f, g, h, rfl⟩

theorem rabbit_expand (cs : Rabbit.State) (key : List U8) :
    [0, 1, 2, 3, 4, 5, 6, 7].foldl (Rabbit.expandStep key) { cs with carry := 0 } =
      saved (Rabbit.loadKeyExpand key) cs.MX cs.MC := by
  obtain ⟨MX, MC, X, C, c⟩ := cs
  obtain ⟨_, _, _, _, _, _, _, _, rfl⟩ := vec8 X
  obtain ⟨_, _, _, _, _, _, _, _, rfl⟩ := vec8 C
  rfl

theorem rabbit_finish (cs : Rabbit.State) :
    [0, 1, 2, 3, 4, 5, 6, 7].foldl Rabbit.finishStep cs =
      { cs with C := Vector.ofFn fun j : Fin 8 => cs.C[j] ^^^ cs.X[(j.val + 4) % 8]'(by omega) } := by
  obtain ⟨MX, MC, X, C, c⟩ := cs
  obtain ⟨_, _, _, _, _, _, _, _, rfl⟩ := vec8 X
  obtain ⟨_, _, _, _, _, _, _, _, rfl⟩ := vec8 C
  rfl

theorem rabbit_save (cs : Rabbit.State) :
    [0, 1, 2, 3, 4, 5, 6, 7].foldl Rabbit.saveStep cs = saved cs cs.X cs.C := by
  obtain ⟨MX, MC, X, C, c⟩ := cs
  obtain ⟨_, _, _, _, _, _, _, _, rfl⟩ := vec8 X
  obtain ⟨_, _, _, _, _, _, _, _, rfl⟩ := vec8 C
  obtain ⟨_, _, _, _, _, _, _, _, rfl⟩ := vec8 MX
  obtain ⟨_, _, _, _, _, _, _, _, rfl⟩ := vec8 MC
  rfl

theorem loadKeyFrom_eq (cs : Rabbit.State) (key : List U8) : Rabbit.loadKeyFrom cs key =
    [0, 1, 2, 3, 4, 5, 6, 7].foldl Rabbit.saveStep ([0, 1, 2, 3, 4, 5, 6, 7].foldl Rabbit.finishStep
      (Rabbit.update4 ([0, 1, 2, 3, 4, 5, 6, 7].foldl (Rabbit.expandStep key) { cs with carry := 0 }))) := by
  unfold Rabbit.loadKeyFrom
  rfl

/-- The end of `rabbit_load_key`, from the state after the four updates. -/
def finished (s : Rabbit.State) : Rabbit.State :=
  let C := Vector.ofFn fun j : Fin 8 => s.C[j] ^^^ s.X[(j.val + 4) % 8]'(by omega)
  { s with C := C, MC := C, MX := s.X }

theorem loadKey_eq (key : List U8) : Rabbit.loadKey key = finished (Rabbit.update4 (Rabbit.loadKeyExpand key)) := by
  unfold Rabbit.loadKey finished
  rfl

theorem finish_save (s : Rabbit.State) (a b : Vector U32 8) :
    [0, 1, 2, 3, 4, 5, 6, 7].foldl Rabbit.saveStep ([0, 1, 2, 3, 4, 5, 6, 7].foldl Rabbit.finishStep (saved s a b)) = finished s := by
  rw [rabbit_finish, rabbit_save]
  rfl

/-- **C139** for Rabbit. -/
theorem reinit_rabbit (cs : Rabbit.State) (key : List U8) : Rabbit.loadKeyFrom cs key = Rabbit.loadKey key := by
  rw [loadKeyFrom_eq, loadKey_eq, rabbit_expand, update4_saved, finish_save]

/-! ### Serpent and Sosemanuk -/

theorem serpent_pad (junk : List U8) (hj : junk.length = 32) (key : List U8) (hk : key.length ≤ 32) :
    Serpent.padFrom junk key = Serpent.padKey key := by
  unfold Serpent.padFrom Serpent.padKey
  dsimp only
  have e0 := copyTo_append 0 key [] junk rfl (by omega)
  rw [List.nil_append, List.nil_append] at e0
  rw [e0]
  by_cases h : key.length < 32
  · have e : (key ++ junk.drop key.length).set key.length 0x80 = (key ++ [0x80]) ++ junk.drop (key.length + 1) := by
      rw [List.set_append_right _ _ (Nat.le_refl _), Nat.sub_self, List.drop_eq_getElem_cons (by omega), List.set_cons_zero]
      simp
    rw [if_pos h, if_pos h, e, copyTo_append _ _ _ _ (by simp) (by rw [List.length_replicate, List.length_drop]; omega),
      List.drop_of_length_le (by rw [List.length_replicate, List.length_drop]; omega), List.append_nil, List.append_assoc]
    rfl
  · rw [if_neg h, if_neg h, List.drop_of_length_le (by omega), List.append_nil]

theorem serpent_grow (n i : Nat) (w : List U32) :
    Serpent.wLoop n i w = grow (fun i w => rotl32 (w.getD (i - 8) 0 ^^^ w.getD (i - 5) 0 ^^^ w.getD (i - 3) 0 ^^^ w.getD (i - 1) 0 ^^^
      Serpent.phi ^^^ BitVec.ofNat 32 i) 11) n i w := by
  induction n generalizing i w with
  | zero => rfl
  | succ n ih => rw [Serpent.wLoop, ih, grow, Serpent.wStep]

theorem serpent_w (junk8 : List U8) (h8 : junk8.length = 32) (junk : List U32) (hj : junk.length = 100) (key : List U8)
    (hk : key.length ≤ 32) : Serpent.wFrom junk8 junk key = Serpent.words key := by
  unfold Serpent.wFrom Serpent.words
  rw [serpent_pad junk8 h8 key hk]
  generalize bytesToWordsLE (Serpent.padKey key) = ws
  match ws with
  | [k0, k1, k2, k3, k4, k5, k6, k7] =>
    dsimp only
    have hl : (Serpent.firstWords k0 k1 k2 k3 k4 k5 k6 k7).length = 8 := rfl
    generalize Serpent.firstWords k0 k1 k2 k3 k4 k5 k6 k7 = f at hl ⊢
    have e := copyTo_append 0 f [] junk rfl (by omega)
    rw [List.nil_append, List.nil_append] at e
    rw [e, serpent_grow, fillFrom_append _ 8 (fun i a hi => by
        rw [getD_take _ _ _ _ (by omega), getD_take _ _ _ _ (by omega), getD_take _ _ _ _ (by omega), getD_take _ _ _ _ (by omega)])
        _ _ _ _ (Nat.le_refl 8) hl (by rw [List.length_drop]; omega)]
  | [] => rfl
  | [_] => rfl
  | [_, _] => rfl
  | [_, _, _] => rfl
  | [_, _, _, _] => rfl
  | [_, _, _, _, _] => rfl
  | [_, _, _, _, _, _] => rfl
  | [_, _, _, _, _, _, _] => rfl
  | _ :: _ :: _ :: _ :: _ :: _ :: _ :: _ :: _ :: _ => rfl

theorem keyBlock_length (b : Nat) (w0 w1 w2 w3 : U32) : (Serpent.keyBlock b w0 w1 w2 w3).length = 4 := by
  unfold Serpent.keyBlock
  split <;> rfl

theorem serpent_rk (w : List U32) (n b : Nat) (pre d : List U32) (hp : pre.length = 4 * b) (hd : d.length = 4 * n) :
    Serpent.rkFrom w n b (pre ++ d) = pre ++ Serpent.rkLoop n b (w.drop (4 * b)) := by
  induction n generalizing b pre d with
  | zero =>
    have : d = [] := List.length_eq_zero_iff.mp hd
    rw [Serpent.rkFrom, Serpent.rkLoop, this]
  | succ n ih =>
    have hb := keyBlock_length b (w.getD (4 * b) 0) (w.getD (4 * b + 1) 0) (w.getD (4 * b + 2) 0) (w.getD (4 * b + 3) 0)
    have e (k : Nat) : (w.drop (4 * b)).getD k 0 = w.getD (4 * b + k) 0 := by
      rw [List.getD_eq_getElem?_getD, List.getD_eq_getElem?_getD, List.getElem?_drop]
    rw [Serpent.rkFrom, Serpent.rkLoop, e, e, e, e, Nat.add_zero, List.drop_drop]
    generalize Serpent.keyBlock b (w.getD (4 * b) 0) (w.getD (4 * b + 1) 0) (w.getD (4 * b + 2) 0) (w.getD (4 * b + 3) 0) = k at hb ⊢
    rw [copyTo_append _ _ _ _ hp (by omega), ih _ _ _ (by rw [List.length_append]; omega) (by rw [List.length_drop]; omega),
      List.append_assoc]
    rfl

theorem serpent_schedule (rk : List U32) (hr : rk.length = 100) (w : List U32) :
    Serpent.rkFrom w 25 0 rk = Serpent.rkLoop 25 0 w := by
  have h := serpent_rk w 25 0 [] rk rfl hr
  rw [List.nil_append, List.nil_append] at h
  exact h

/-- **C139** for Serpent24, and with it for `sosemanuk_load_key`. -/
theorem reinit_serpent (rk : List U32) (hr : rk.length = 100) (junk8 : List U8) (h8 : junk8.length = 32) (junk : List U32)
    (hj : junk.length = 100) (key : List U8) (size : Int) :
    Serpent.keyScheduleFrom rk junk8 junk key size = Serpent.keySchedule key size := by
  unfold Serpent.keyScheduleFrom Serpent.keySchedule
  by_cases h1 : 32 < size
  · rw [if_pos h1, if_pos h1]
  rw [if_neg h1, if_neg h1]
  by_cases h2 : size < 0 ∨ key.length < size.toNat
  · rw [if_pos h2, if_pos h2]
  rw [if_neg h2, if_neg h2, serpent_w junk8 h8 junk hj _ (by rw [List.length_take]; omega), serpent_schedule rk hr, Serpent.schedule]

/-! ### AES -/

theorem aes_grow (n i : Nat) (ks : List U32) :
    AES.expandLoop n i ks = grow (fun i ks =>
      let temp := ks.getD (i - 1) 0
      let temp := if i % 4 = 0 then AES.subByte (AES.rotByte temp) ^^^ (AES.rconTab.getD (i / 4) 0).setWidth 32 else temp
      ks.getD (i - 4) 0 ^^^ temp) n i ks := by
  induction n generalizing i ks with
  | zero => rfl
  | succ n ih => rw [AES.expandLoop, ih, grow]

theorem aes_expansion (rk : List U32) (hr : rk.length = 44) (key : List U8) :
    AES.keyExpansionFrom rk key = AES.keyExpansion key := by
  unfold AES.keyExpansionFrom AES.keyExpansion
  have e : fillFrom (fun i _ => AES.keyWord key i) 4 0 rk =
      [AES.keyWord key 0, AES.keyWord key 1, AES.keyWord key 2, AES.keyWord key 3] ++ rk.drop 4 := by
    rw [fillFrom_eq _ 0 (fun _ _ _ => rfl) _ _ _ (Nat.le_refl 0) (by omega)]
    rfl
  rw [e, aes_grow]
  generalize hl : [AES.keyWord key 0, AES.keyWord key 1, AES.keyWord key 2, AES.keyWord key 3] = f
  have hl : f.length = 4 := by rw [← hl]; rfl
  rw [fillFrom_append _ 4 (fun i a hi => by
        dsimp only
        rw [getD_take _ _ _ _ (by omega), getD_take _ _ _ _ (by omega)])
        _ _ _ _ (Nat.le_refl 4) hl (by rw [List.length_drop]; omega)]

/-- **C139** for AES-CTR: key and nonce in either order. -/
theorem reinit_aesCtr (cs : AES.State) (hr : cs.rk.length = 44) (key nonce : List U8) :
    AES.ctrLoadIv (AES.loadKeyFrom cs key) nonce = ⟨⟨(AES.quadOf nonce).w0, (AES.quadOf nonce).w1, (AES.quadOf nonce).w2, 0x01000000⟩, AES.keyExpansion key⟩ ∧
    AES.loadKeyFrom (AES.ctrLoadIv cs nonce) key = AES.ctrLoadIv (AES.loadKeyFrom cs key) nonce := by
  rw [AES.loadKeyFrom, AES.loadKeyFrom, AES.ctrLoadIv, AES.ctrLoadIv]
  dsimp only
  rw [aes_expansion _ hr]
  exact ⟨rfl, rfl⟩

/-- **C139** for AES-CFB. -/
theorem reinit_aesCfb (cs : AES.State) (hr : cs.rk.length = 44) (key iv : List U8) :
    AES.cfbInitFrom cs key iv = AES.cfbInit key iv := by
  rw [AES.cfbInitFrom, AES.cfbInit]
  dsimp only
  rw [aes_expansion _ hr]

/-! ### DES -/

theorem des_ks (n i : Nat) (X Y : U32) (p : Nat) (pre d : List U32) (hp : pre.length = p) (hd : d.length = 2 * n) :
    DES.ksFrom n i X Y p (pre ++ d) = pre ++ DES.ksLoop n i X Y := by
  induction n generalizing i X Y p pre d with
  | zero =>
    have : d = [] := List.length_eq_zero_iff.mp hd
    rw [DES.ksFrom, DES.ksLoop, this]
  | succ n ih =>
    rw [DES.ksFrom, DES.ksLoop]
    generalize DES.rotKey i X = X'
    generalize DES.rotKey i Y = Y'
    match d, hd with
    | a :: b :: d, hd =>
      have e (v w : U32) : ((pre ++ a :: b :: d).set p v).set (p + 1) w = (pre ++ [v, w]) ++ d := by
        rw [List.set_append_right _ _ (by omega), List.set_append_right _ _ (by omega), hp, Nat.sub_self, Nat.add_sub_cancel_left]
        simp
      rw [e, ih _ _ _ _ _ _ (by simp [hp]) (by simp only [List.length_cons] at hd; omega), List.append_assoc]
      rfl
    | [_], hd => simp at hd; omega
    | [], hd => simp at hd

/-- **C139** for the two key schedules of DES. -/
theorem reinit_des (rk : List U32) (hr : rk.length = 32) (key : List U8) :
    DES.keyScheduleEncryptFrom rk key = DES.keyScheduleEncrypt key ∧ DES.keyScheduleDecryptFrom rk key = DES.keyScheduleDecrypt key := by
  have h : DES.keyScheduleEncryptFrom rk key = DES.keyScheduleEncrypt key := by
    unfold DES.keyScheduleEncryptFrom DES.keyScheduleEncrypt
    split
    · dsimp only
      have e (X Y : U32) := des_ks 16 0 X Y 0 [] rk rfl hr
      simp only [List.nil_append] at e
      rw [e]
    · rename_i hx
      split
      · exact absurd rfl (hx _ _ _ _ _ _ _ _ _)
      · rfl
  refine ⟨h, ?_⟩
  rw [DES.keyScheduleDecryptFrom, h, DES.keyScheduleDecrypt]

/-! ### Objects that meet the hypotheses: all ones everywhere, and an object left by another key -/

example : ChaCha.initFrom ⟨Vector.replicate 16 0xffffffff#32⟩ (List.replicate 32 7) (List.replicate 12 9) =
    ChaCha.init (List.replicate 32 7) (List.replicate 12 9) :=
  reinit_chacha _ _ _ (by simp) (by simp)

example : ChaCha.initFrom (ChaCha.init (List.replicate 32 1) (List.replicate 12 2)) (List.replicate 32 7) (List.replicate 12 9) =
    ChaCha.init (List.replicate 32 7) (List.replicate 12 9) :=
  reinit_chacha _ _ _ (by simp) (by simp)

example : HC128.initFrom ⟨Vector.replicate 512 1#32, Vector.replicate 512 2#32⟩ (List.replicate 1280 3) (List.replicate 16 7) (List.replicate 16 9) =
    HC128.init (List.replicate 16 7) (List.replicate 16 9) :=
  reinit_hc128 _ _ List.length_replicate _ _ (by simp) (by simp)

/-- An object on which the carry is set. -/
example : Rabbit.loadKeyFrom { Rabbit.loadKey (List.replicate 16 1) with carry := 1 } (List.replicate 16 7) = Rabbit.loadKey (List.replicate 16 7) :=
  reinit_rabbit _ _

/-- A short key: marker and zeros must replace the old bytes. -/
example : Serpent.keyScheduleFrom (List.replicate 100 1) (List.replicate 32 0xff) (List.replicate 100 2) [1, 2, 3] 3 =
    Serpent.keySchedule [1, 2, 3] 3 :=
  reinit_serpent _ List.length_replicate _ List.length_replicate _ List.length_replicate _ _

example : Serpent.padFrom (List.replicate 32 0xff) [1, 2, 3] = [1, 2, 3, 0x80] ++ List.replicate 28 0 := by decide +kernel

example : AES.loadKeyFrom (AES.ctrLoadIv ⟨⟨5, 6, 7, 8⟩, List.replicate 44 9⟩ (List.replicate 16 3)) (List.replicate 16 7) =
    AES.ctrLoadIv (AES.loadKeyFrom ⟨⟨5, 6, 7, 8⟩, List.replicate 44 9⟩ (List.replicate 16 7)) (List.replicate 16 3) :=
  (reinit_aesCtr _ List.length_replicate _ _).2

example : AES.cfbInitFrom ⟨⟨5, 6, 7, 8⟩, List.replicate 44 9⟩ (List.replicate 16 7) (List.replicate 16 3) =
    AES.cfbInit (List.replicate 16 7) (List.replicate 16 3) :=
  reinit_aesCfb _ List.length_replicate _ _

example : DES.keyScheduleDecryptFrom (List.replicate 32 0xffffffff) [1, 2, 3, 4, 5, 6, 7, 8] = DES.keyScheduleDecrypt [1, 2, 3, 4, 5, 6, 7, 8] :=
  (reinit_des _ List.length_replicate _).2

end CT.Props.Reinit
