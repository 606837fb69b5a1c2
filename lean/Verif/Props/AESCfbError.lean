import Verif.Props.AESCfb
import Verif.Proof.AESPerm

/-!
# AES cipher feedback mode: damaged ciphertexts (C104)
-/

namespace CT.Props.AES
open CT.AES Spec.AES

theorem cfbDec_nil (key prev : List U8) (n : Nat) : (cfbDec key n prev []) = [] := by
  induction n generalizing prev with
  | zero => rfl
  | succ n ih => rw [cfbDec, List.take_nil, List.drop_nil, ih]; simp

/-- Decryption of a first block `b` and the rest. -/
theorem cfbDec_cons (key prev b d : List U8) (n : Nat) (hb : b.length = 16) :
    cfbDec key (n + 1) prev (b ++ d) = xorBytes b (cipher key prev) ++ cfbDec key n b d := by
  rw [cfbDec, List.take_left' hb, List.drop_left' hb]

/-- The effect of one damaged block on CFB-128 decryption. -/
theorem cfbDec_damaged (key b b' d : List U8) (r : Nat) (hb : b.length = 16) (hb' : b'.length = 16)
    (hd : d.length = 16 * r) : ∀ (i : Nat) (a prev : List U8), a.length = 16 * i →
    ∃ pa pb pb' px px' pd,
      cfbDec key (i + 1 + r) prev (a ++ b ++ d) = pa ++ pb ++ px ++ pd ∧
      cfbDec key (i + 1 + r) prev (a ++ b' ++ d) = pa ++ pb' ++ px' ++ pd ∧
      pa.length = a.length ∧ pb.length = 16 ∧ pb'.length = 16 ∧ xorBytes pb pb' = xorBytes b b' ∧
      px.length = min 16 d.length ∧ px'.length = min 16 d.length ∧ (b ≠ b' → d ≠ [] → px ≠ px') := by
  have hc : ∀ key prev, (cipher key prev).length = 16 := fun _ _ => rfl
  intro i
  induction i with
  | zero =>
    intro a prev ha
    have ha : a = [] := List.eq_nil_of_length_eq_zero (by omega)
    subst ha
    rw [Nat.zero_add, Nat.add_comm 1 r, List.nil_append, List.nil_append, cfbDec_cons _ _ _ _ _ hb,
      cfbDec_cons _ _ _ _ _ hb']
    have hx : xorBytes (xorBytes b (cipher key prev)) (xorBytes b' (cipher key prev)) = xorBytes b b' :=
      xorBytes_cancel _ _ _ (by rw [hc]; omega) (by rw [hc]; omega)
    cases r with
    | zero =>
      have hd : d = [] := List.eq_nil_of_length_eq_zero (by omega)
      subst hd
      refine ⟨[], xorBytes b (cipher key prev), xorBytes b' (cipher key prev), [], [], [], ?_, ?_, rfl, ?_, ?_, hx,
        rfl, rfl, fun _ h => absurd rfl h⟩
      · rw [cfbDec_nil]; simp only [List.append_nil, List.nil_append]
      · rw [cfbDec_nil]; simp only [List.append_nil, List.nil_append]
      · rw [xorBytes_length, hc, hb]; rfl
      · rw [xorBytes_length, hc, hb']; rfl
    | succ r =>
      refine ⟨[], xorBytes b (cipher key prev), xorBytes b' (cipher key prev), xorBytes (d.take 16) (cipher key b),
        xorBytes (d.take 16) (cipher key b'), cfbDec key r (d.take 16) (d.drop 16), ?_, ?_, rfl, ?_, ?_, hx,
        ?_, ?_, fun hn _ he => hn ?_⟩
      · rw [cfbDec, List.nil_append, List.append_assoc]
      · rw [cfbDec, List.nil_append, List.append_assoc]
      · rw [xorBytes_length, hc, hb]; rfl
      · rw [xorBytes_length, hc, hb']; rfl
      · rw [xorBytes_length, hc, List.length_take]; omega
      · rw [xorBytes_length, hc, List.length_take]; omega
      · refine cipher_inj (key := key) hb hb' ?_
        have e1 := congrArg (fun l => xorBytes l (d.take 16)) he
        have ht : (d.take 16).length = 16 := by rw [List.length_take]; omega
        rw [xorBytes_comm (d.take 16), xorBytes_comm (d.take 16) (cipher key b'),
          xorBytes_xorBytes _ _ (by rw [hc, ht]), xorBytes_xorBytes _ _ (by rw [hc, ht])] at e1
        exact e1
  | succ i ih =>
    intro a prev ha
    have ha16 : (a.take 16).length = 16 := by rw [List.length_take]; omega
    obtain ⟨pa, pb, pb', px, px', pd, h1, h2, h3, h4⟩ := ih (a.drop 16) (a.take 16) (by rw [List.length_drop]; omega)
    have e : ∀ x, a ++ x ++ d = a.take 16 ++ (a.drop 16 ++ x ++ d) := fun x => by
      rw [← List.append_assoc, ← List.append_assoc, List.take_append_drop]
    refine ⟨xorBytes (a.take 16) (cipher key prev) ++ pa, pb, pb', px, px', pd, ?_, ?_, ?_, h4⟩
    · rw [e, show i + 1 + 1 + r = (i + 1 + r) + 1 by omega, cfbDec_cons _ _ _ _ _ ha16, h1]
      simp only [List.append_assoc]
    · rw [e, show i + 1 + 1 + r = (i + 1 + r) + 1 by omega, cfbDec_cons _ _ _ _ _ ha16, h2]
      simp only [List.append_assoc]
    · rw [List.length_append, xorBytes_length, hc, ha16, h3, List.length_drop]; omega

/-- C104: ciphertexts, sent as packets of whole blocks, in which only one block `b` is replaced by
another block `b'` on the way.  Decryption succeeds; all plaintext before that block comes out as
without the damage; in its place exactly the bits that were changed in `b` come out changed; the
block after it is damaged (it always comes out different); everything after that is as without the
damage. -/
theorem aes_cfb_error_propagation (key iv a b b' d : List U8) (hiv : iv.length = 16)
    (ha : a.length % 16 = 0) (hb : b.length = 16) (hb' : b'.length = 16) (hd : d.length % 16 = 0)
    (cs cs' : List (List U8)) (h16 : ∀ p ∈ cs, p.length % 16 = 0) (h16' : ∀ p ∈ cs', p.length % 16 = 0)
    (hcs : cs.flatten = a ++ b ++ d) (hcs' : cs'.flatten = a ++ b' ++ d)
    (v : CfbVariant) (hv : v = portable ∨ v = arm ∨ v = x86) :
    ∃ s outs s' outs' pa pb pb' px px' pd,
      runAll (dec v) (cfbInit key iv) cs = .ok (s, outs) ∧ runAll (dec v) (cfbInit key iv) cs' = .ok (s', outs') ∧
      outs.flatten = pa ++ pb ++ px ++ pd ∧ outs'.flatten = pa ++ pb' ++ px' ++ pd ∧
      pa.length = a.length ∧ pb.length = 16 ∧ pb'.length = 16 ∧ xorBytes pb pb' = xorBytes b b' ∧
      px.length = min 16 d.length ∧ px'.length = min 16 d.length ∧ (b ≠ b' → d ≠ [] → px ≠ px') := by
  obtain ⟨-, s, outs, h1, -, h2⟩ := aes_cfb_sp800_38a key iv hiv cs h16 v hv
  obtain ⟨-, s', outs', h1', -, h2'⟩ := aes_cfb_sp800_38a key iv hiv cs' h16' v hv
  have e : (a ++ b ++ d).length / 16 = a.length / 16 + 1 + d.length / 16 := by
    rw [List.length_append, List.length_append]; omega
  have e' : (a ++ b' ++ d).length / 16 = a.length / 16 + 1 + d.length / 16 := by
    rw [List.length_append, List.length_append]; omega
  obtain ⟨pa, pb, pb', px, px', pd, g1, g2, g3⟩ :=
    cfbDec_damaged key b b' d (d.length / 16) hb hb' (by omega) (a.length / 16) a iv (by omega)
  refine ⟨s, outs, s', outs', pa, pb, pb', px, px', pd, h1, h1', ?_, ?_, g3⟩
  · rw [h2, hcs, e, g1]
  · rw [h2', hcs', e', g2]

/-- Non-trivial instance: the middle block of three, in two packets. -/
example : (∀ p ∈ [List.replicate 16 (1 : U8), List.replicate 16 2 ++ List.replicate 16 3], p.length % 16 = 0) ∧
    [List.replicate 16 (1 : U8), List.replicate 16 2 ++ List.replicate 16 3].flatten =
      List.replicate 16 1 ++ List.replicate 16 2 ++ List.replicate 16 3 ∧
    List.replicate 16 (2 : U8) ≠ List.replicate 16 7 ∧ List.replicate 16 (3 : U8) ≠ [] := by decide

end CT.Props.AES
