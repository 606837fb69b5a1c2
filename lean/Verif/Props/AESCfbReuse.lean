import Verif.Props.AESCfbError
import Verif.Props.AESNonces

/-!
# AES-CFB: two messages under one key and IV (C124)
-/

namespace CT.Props.AES
open CT.AES CT.Spec.AES

/-- Encryption of a first block `b` and the rest. -/
theorem cfbEnc_cons (key prev b d : List U8) (n : Nat) (hb : b.length = 16) :
    cfbEnc key (n + 1) prev (b ++ d) = xorBytes b (cipher key prev) ++ cfbEnc key n (xorBytes b (cipher key prev)) d := by
  rw [cfbEnc, List.take_left' hb, List.drop_left' hb]

theorem cfbEnc_length (key : List U8) (n : Nat) : ∀ prev msg : List U8, msg.length = 16 * n →
    (cfbEnc key n prev msg).length = 16 * n := by
  induction n with
  | zero => intro _ _ _; rfl
  | succ n ih =>
    intro prev msg h
    have hc : (cipher key prev).length = 16 := rfl
    rw [cfbEnc, List.length_append, ih _ _ (by rw [List.length_drop]; omega), xorBytes_length, List.length_take, hc]
    omega

/-- Encryption of leading blocks and the rest. -/
theorem cfbEnc_append (key : List U8) : ∀ (i : Nat) (a prev : List U8), a.length = 16 * i → prev.length = 16 →
    ∃ last, last.length = 16 ∧ (∀ d r, cfbEnc key (i + r) prev (a ++ d) = cfbEnc key i prev a ++ cfbEnc key r last d) := by
  intro i
  induction i with
  | zero =>
    intro a prev ha hp
    have : a = [] := List.eq_nil_of_length_eq_zero (by omega)
    subst this
    exact ⟨prev, hp, fun d r => by rw [Nat.zero_add]; rfl⟩
  | succ i ih =>
    intro a prev ha hp
    have ht : (a.take 16).length = 16 := by rw [List.length_take]; omega
    have hl : (xorBytes (a.take 16) (cipher key prev)).length = 16 := by
      rw [xorBytes_length, ht, show (cipher key prev).length = 16 from rfl]; rfl
    obtain ⟨last, h1, h2⟩ := ih (a.drop 16) (xorBytes (a.take 16) (cipher key prev)) (by rw [List.length_drop]; omega) hl
    refine ⟨last, h1, fun d r => ?_⟩
    rw [show i + 1 + r = (i + r) + 1 by omega]
    conv => lhs; rw [← List.take_append_drop 16 a, List.append_assoc]
    rw [cfbEnc_cons _ _ _ _ _ ht, h2]
    conv => rhs; rw [cfbEnc]
    simp only [List.append_assoc]

theorem xorBytes_swap (b b' k k' : List U8) (h1 : b.length = 16) (h2 : b'.length = 16) (h3 : k.length = 16) (h4 : k'.length = 16)
    (h : xorBytes (xorBytes b k) (xorBytes b' k') = xorBytes b b') : k = k' := by
  apply List.ext_getElem (h3.trans h4.symm)
  intro i i1 i2
  have := congrArg (fun l => l[i]?) h
  simp only [xorBytes, List.getElem?_zipWith, List.getElem?_eq_getElem (show i < b.length by omega),
    List.getElem?_eq_getElem (show i < b'.length by omega), List.getElem?_eq_getElem i1, List.getElem?_eq_getElem i2,
    Option.some.injEq] at this
  have e := congrArg (b[i] ^^^ b'[i] ^^^ ·) this
  simp only [BitVec.xor_self] at e
  have e2 : b[i] ^^^ b'[i] ^^^ (b[i] ^^^ k[i] ^^^ (b'[i] ^^^ k'[i])) = k[i] ^^^ k'[i] := by
    ext j
    simp only [BitVec.getElem_xor]
    cases b[i][j] <;> cases b'[i][j] <;> cases k[i][j] <;> cases k'[i][j] <;> rfl
  rw [e2] at e
  have e3 := congrArg (· ^^^ k'[i]) e
  simpa only [BitVec.xor_assoc, BitVec.xor_self, BitVec.xor_zero, BitVec.zero_xor] using e3

/-- C124.  Two messages under one key and IV, in any packets of whole blocks and any of the three builds, that agree in the
leading blocks `a` and have the different blocks `b` and `b'` next.  The ciphertexts agree in the leading blocks, the
next blocks show the difference of `b` and `b'` (so they are different), and the blocks right after that are encrypted
with different keystream blocks: their difference is not that of the messages. -/
theorem aes_cfb_reuse (key iv a b b' d d' : List U8) (hiv : iv.length = 16) (ha : a.length % 16 = 0) (hb : b.length = 16)
    (hb' : b'.length = 16) (hne : b ≠ b') (ps qs : List (List U8)) (hp : ∀ p ∈ ps, p.length % 16 = 0)
    (hq : ∀ q ∈ qs, q.length % 16 = 0) (hps : ps.flatten = a ++ b ++ d) (hqs : qs.flatten = a ++ b' ++ d')
    (v w : CfbVariant) (hv : v = portable ∨ v = arm ∨ v = x86) (hw : w = portable ∨ w = arm ∨ w = x86) :
    ∃ s outs s' outs' ca cb cb' cd cd', runAll (enc v) (cfbInit key iv) ps = .ok (s, outs) ∧
      runAll (enc w) (cfbInit key iv) qs = .ok (s', outs') ∧
      outs.flatten = ca ++ cb ++ cd ∧ outs'.flatten = ca ++ cb' ++ cd' ∧
      ca.length = a.length ∧ cb.length = 16 ∧ cb'.length = 16 ∧ cd.length = d.length ∧ cd'.length = d'.length ∧
      xorBytes cb cb' = xorBytes b b' ∧ cb ≠ cb' ∧
      (d ≠ [] → d' ≠ [] → xorBytes (cd.take 16) (cd'.take 16) ≠ xorBytes (d.take 16) (d'.take 16)) := by
  have hc : ∀ prev, (cipher key prev).length = 16 := fun _ => rfl
  obtain ⟨⟨s, outs, e1, -, f1⟩, -⟩ := aes_cfb_sp800_38a key iv hiv ps hp v hv
  obtain ⟨⟨s', outs', e2, -, f2⟩, -⟩ := aes_cfb_sp800_38a key iv hiv qs hq w hw
  have l1 := flatten_mod16 ps hp
  have l2 := flatten_mod16 qs hq
  rw [hps, List.length_append, List.length_append] at l1
  rw [hqs, List.length_append, List.length_append] at l2
  obtain ⟨last, h1, h2⟩ := cfbEnc_append key (a.length / 16) a iv (by omega) hiv
  have g : ∀ (x y : List U8), x.length = 16 → y.length % 16 = 0 →
      cfbEnc key ((a ++ x ++ y).length / 16) iv (a ++ x ++ y) = cfbEnc key (a.length / 16) iv a ++
        xorBytes x (cipher key last) ++ cfbEnc key (y.length / 16) (xorBytes x (cipher key last)) y := by
    intro x y hx hy
    rw [List.append_assoc, show (a ++ (x ++ y)).length / 16 = a.length / 16 + (y.length / 16 + 1) by
      simp only [List.length_append]; omega, h2, cfbEnc_cons _ _ _ _ _ hx, List.append_assoc]
  have hl : ∀ x : List U8, x.length = 16 → (xorBytes x (cipher key last)).length = 16 := fun x hx => by
    rw [xorBytes_length, hx, hc]; rfl
  have hcb : xorBytes b (cipher key last) ≠ xorBytes b' (cipher key last) := fun e => hne (by
    rw [← xorBytes_xorBytes b (cipher key last) (by rw [hb, hc]), e, xorBytes_xorBytes b' _ (by rw [hb', hc])])
  refine ⟨s, outs, s', outs', _, _, _, _, _, e1, e2, by rw [f1, hps, g b d hb (by omega)], by rw [f2, hqs, g b' d' hb' (by omega)],
    ?_, hl b hb, hl b' hb', ?_, ?_, xorBytes_cancel _ _ _ (by rw [hb, hc]) (by rw [hb', hc]), hcb, fun hd hd' he => ?_⟩
  · rw [cfbEnc_length _ _ _ _ (by omega)]; omega
  · rw [cfbEnc_length _ _ _ _ (by omega)]; omega
  · rw [cfbEnc_length _ _ _ _ (by omega)]; omega
  · have n1 : d.length ≠ 0 := fun h => hd (List.eq_nil_of_length_eq_zero h)
    have n2 : d'.length ≠ 0 := fun h => hd' (List.eq_nil_of_length_eq_zero h)
    have t1 : (d.take 16).length = 16 := by rw [List.length_take]; omega
    have t2 : (d'.take 16).length = 16 := by rw [List.length_take]; omega
    have hfirst : ∀ prev x : List U8, x.length ≠ 0 → x.length % 16 = 0 →
        (cfbEnc key (x.length / 16) prev x).take 16 = xorBytes (x.take 16) (cipher key prev) := by
      intro prev x hx hx'
      obtain ⟨r, hr⟩ : ∃ r, x.length / 16 = r + 1 := ⟨x.length / 16 - 1, by omega⟩
      rw [hr, cfbEnc]
      exact List.take_left' (by rw [xorBytes_length, List.length_take, hc]; omega)
    rw [hfirst _ _ n1 (by omega), hfirst _ _ n2 (by omega)] at he
    have := xorBytes_swap _ _ _ _ t1 t2 (hc _) (hc _) he
    exact hcb (cipher_inj (key := key) (hl b hb) (hl b' hb') this)

/-- Non-trivial instance of the hypotheses: the second of three blocks differs. -/
example : (∀ p ∈ [List.replicate 16 (1 : U8), List.replicate 32 2], p.length % 16 = 0) ∧
    [List.replicate 16 (1 : U8), List.replicate 32 2].flatten =
      List.replicate 16 (1 : U8) ++ List.replicate 16 2 ++ List.replicate 16 2 ∧
    [List.replicate 16 (1 : U8) ++ List.replicate 16 9].flatten = List.replicate 16 (1 : U8) ++ List.replicate 16 9 ++ [] ∧
    List.replicate 16 (2 : U8) ≠ List.replicate 16 9 := by decide

end CT.Props.AES
