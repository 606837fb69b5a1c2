{
 "claims": [
  {
   "property": "C01",
   "status": "proved",
   "theorems": [
    "CT.Props.Hex.hex_encode_writes",
    "CT.Props.Hex.hex_round_trip",
    "CT.Props.Hex.hex_encode_needs_room",
    "CT.Props.Hex.hex_encode_negative"
   ],
   "note": "inputs below 2^30 bytes, beyond which the int index overflows"
  },
  {
   "property": "C02",
   "status": "partial",
   "theorems": [
    "CT.Props.Hex.hex_decode_text_partial",
    "CT.Props.Hex.hex_decode_text_refuted",
    "CT.Props.Hex.hex_decode_text_iff"
   ],
   "note": "The code violates the property for lower-case letters, and exactly for those."
  },
  {
   "property": "C03",
   "status": "partial",
   "theorems": [
    "CT.Props.SHA256.sha256_hash_copy_fips_partial",
    "CT.Props.SHA256.sha256_hash_copy_fips_refuted",
    "CT.Props.SHA256.sha256_copies_agree"
   ],
   "note": "The code violates the property for lengths 63 mod 64 (buffer overflow). Proved for all other lengths, refuted in general."
  },
  {
   "property": "C04",
   "status": "proved",
   "theorems": [
    "CT.Props.SHA256.sha256_hmac_copy_fips"
   ],
   "note": "message length below 2^31-128, the range of the code's int n"
  },
  {
   "property": "C05",
   "status": "partial",
   "theorems": [
    "CT.Props.SHA256.sha256_hmac_copy_no_ub",
    "CT.Props.SHA256.sha256_hash_copy_overflows",
    "CT.Props.SHA256.sha256_hash_copy_ub_iff"
   ],
   "note": "Proved for the HMAC copy; false for the stand-alone copy, for which the failing lengths are characterised exactly."
  },
  {
   "property": "C06",
   "status": "proved",
   "theorems": [
    "CT.Props.HMAC.hmac_rfc2104",
    "CT.Props.HMAC.hmac_long_tag_overreads"
   ],
   "note": "non-empty messages (the empty one is C07), tag length up to 32"
  },
  {
   "property": "C07",
   "status": "partial",
   "theorems": [
    "CT.Props.HMAC.hmac_empty_message_no_tag",
    "CT.Props.HMAC.hmac_empty_message_refuted"
   ],
   "note": "The property is false: no tag is written for the empty message. Nothing positive is claimed."
  },
  {
   "property": "C08",
   "status": "proved",
   "theorems": [
    "CT.Props.HMAC.hmac_validation_decides",
    "CT.Props.HMAC.hmac_generate_validate"
   ],
   "note": ""
  },
  {
   "property": "C09",
   "status": "partial",
   "theorems": [
    "CT.Props.HMAC.hmac_verdict_partial",
    "CT.Props.HMAC.hmac_empty_message_verdict",
    "CT.Props.HMAC.hmac_verdict_refuted"
   ],
   "note": "The code violates the property for the empty message (compares with uninitialised memory). Proved for non-empty messages."
  },
  {
   "property": "C10",
   "status": "proved",
   "theorems": [
    "CT.Props.HMAC.hmac_load_key_normalises",
    "CT.Props.HMAC.hmac_load_key_negative",
    "CT.Props.HMAC.hmac_trailing_zero",
    "CT.Props.HMAC.hmac_zero_extension",
    "CT.Props.HMAC.hmac_long_key"
   ],
   "note": ""
  },
  {
   "property": "C100",
   "status": "partial",
   "theorems": [
    "CT.Props.ProgramsHE.jl_keygen_same_key_refuted",
    "CT.Props.ProgramsHE.jl_foreign_key_decrypts",
    "CT.Props.ProgramsHE.jl_moduli_share_factor"
   ],
   "note": "Violated for all sizes: the random state is never seeded, so equal sizes give the same secret key (which then decrypts the messages of other users), and moduli of equal size share the factor q whatever the message size. No part of the claim holds for keys of equal modulus size."
  },
  {
   "property": "C101",
   "status": "partial",
   "theorems": [
    "CT.Props.ProgramsHE.jl_main_exact",
    "CT.Props.ProgramsHE.jl_main_total",
    "CT.Props.ProgramsHE.jl_main_refuted"
   ],
   "note": "Exact outcome proved: the sum, unless a ciphertext is a multiple of p. Violated for such draws, for which the program as shipped prints 2^64 - 1."
  },
  {
   "property": "C102",
   "status": "partial",
   "theorems": [
    "CT.Props.ProgramsHE.lhe_main_partial",
    "CT.Props.ProgramsHE.lhe_main_total",
    "CT.Props.ProgramsHE.lhe_main_refuted"
   ],
   "note": "Proved if the numbers drawn for encryption are 0 or coprime to N. Violated for other draws (an inverse that does not exist is used)."
  },
  {
   "property": "C103",
   "status": "proved",
   "theorems": [
    "CT.Props.JLAny.jl_decrypt_any",
    "CT.Props.JLAny.jl_decrypt_linear"
   ],
   "note": ""
  },
  {
   "property": "C104",
   "status": "proved",
   "theorems": [
    "CT.Props.AES.aes_cfb_error_propagation"
   ],
   "note": "Stated for whole blocks; for other sizes see C36 and C39."
  },
  {
   "property": "C105",
   "status": "proved",
   "theorems": [
    "CT.Props.LHEStore.lhe_programs_in_place",
    "CT.Props.LHEStore.lhe_decrypt_any_variable"
   ],
   "note": ""
  },
  {
   "property": "C106",
   "status": "partial",
   "theorems": [
    "CT.Props.LHEStore.lhe_product_in_place_partial",
    "CT.Props.LHEStore.lhe_product3_in_place_partial",
    "CT.Props.LHEStore.lhe_product_in_place_refuted",
    "CT.Props.LHEStore.lhe_product3_in_place_refuted",
    "CT.Props.LHEStore.lhe_cmult_shared_refuted"
   ],
   "note": "Proved if the result is not an operand. Violated for results written over a factor, over a product of label values, and for a constant that is a member of the result."
  },
  {
   "property": "C107",
   "status": "partial",
   "theorems": [
    "CT.Props.LHEStore.lhe_encrypt_shared_partial",
    "CT.Props.LHEStore.lhe_encrypt_shared_exact",
    "CT.Props.LHEStore.lhe_encrypt_shared_refuted"
   ],
   "note": "Proved if the label value is not written over the message. Violated otherwise: the ciphertext then decrypts to the label value (exact)."
  },
  {
   "property": "C108",
   "status": "partial",
   "theorems": [
    "CT.Props.AES.aes_traced_erase",
    "CT.Props.AES.aes_reads_partial",
    "CT.Props.AES.aes_reads_refuted",
    "CT.Props.AES.aes_key_setup_reads_determine_key",
    "CT.Props.AES.aes_block_first_reads",
    "CT.Props.AES.aes_block_reads_determine_key",
    "CT.Props.AES.aes_ctr_reads_determine_key"
   ],
   "note": "Proved that the tables read, their order and number do not depend on the key. Violated for the entries read: those read while a key is loaded (all builds), or while one known block is encrypted (portable build), determine the key."
  },
  {
   "property": "C109",
   "status": "partial",
   "theorems": [
    "CT.Props.HMAC.hmac_validation_traced_erase",
    "CT.Props.HMAC.hmac_validation_comparisons",
    "CT.Props.HMAC.hmac_forgery_by_timing",
    "CT.Props.HMAC.hmac_validation_timing_refuted"
   ],
   "note": "Exact number proved: it depends on the length of the correct prefix. Violated; a forger that learns the numbers finds the tag of any message with at most 255 n wrong tags."
  },
  {
   "property": "C11",
   "status": "proved",
   "theorems": [
    "CT.Props.MD5.md5_chunked",
    "CT.Props.MD5.md5_chunking_irrelevant"
   ],
   "note": "chunks up to 2^32-64 bytes each (longer ones are C13), any total length"
  },
  {
   "property": "C110",
   "status": "proved",
   "theorems": [
    "CT.Props.AEGIS.aegis_comparisons"
   ],
   "note": ""
  },
  {
   "property": "C111",
   "status": "partial",
   "theorems": [
    "CT.Props.JoyeLibert.jl_decrypt_traced_erase",
    "CT.Props.JoyeLibert.jl_decrypt_branches_are_digits",
    "CT.Props.JoyeLibert.jl_decrypt_branches_reveal",
    "CT.Props.JoyeLibert.jl_decrypt_branches_partial",
    "CT.Props.JoyeLibert.jl_decrypt_branches_refuted"
   ],
   "note": "Proved that the number of conditions tested does not depend on the ciphertext. Violated for their outcomes, which are the binary digits of the decrypted message."
  },
  {
   "property": "C112",
   "status": "partial",
   "theorems": [
    "CT.Props.SHA256.sha256_length_extension",
    "CT.Props.SHA256.sha256_secret_prefix_refuted",
    "CT.Props.MD5.md5_length_extension",
    "CT.Props.MD5.md5_secret_prefix_refuted"
   ],
   "note": "Violated for every secret and message, as for every hash of this form: length extension. HMAC (C06) is what the library offers instead. No part of the claim holds."
  },
  {
   "property": "C113",
   "status": "proved",
   "theorems": [
    "CT.Props.AES.aes_ctr_nonces_separate"
   ],
   "note": "Stated for whole blocks; the builds agree by C32."
  },
  {
   "property": "C114",
   "status": "proved",
   "theorems": [
    "CT.Props.AES.aes_cfb_ivs_separate"
   ],
   "note": ""
  },
  {
   "property": "C115",
   "status": "partial",
   "theorems": [
    "CT.Props.LHEOutput.lhe_text_erase",
    "CT.Props.LHEOutput.lhe_text_reveals",
    "CT.Props.LHEOutput.lhe_text_partial",
    "CT.Props.LHEOutput.lhe_no_text_hides",
    "CT.Props.LHEOutput.lhe_text_refuted",
    "CT.Props.LHEOutput.mulhe_text_erase",
    "CT.Props.LHEOutput.mulhe_text_reveals",
    "CT.Props.LHEOutput.mulhe_text_partial",
    "CT.Props.LHEOutput.mulhe_no_text_hides",
    "CT.Props.LHEOutput.mulhe_text_refuted"
   ],
   "note": "Proved that the text depends on neither the message, the public key nor the random numbers. Violated: the text is the label value, and with the first part of the ciphertext it gives the message in every call."
  },
  {
   "property": "C116",
   "status": "proved",
   "theorems": [
    "CT.Props.JLJacobi.jl_jacobi_of_ciphertext",
    "CT.Props.JLJacobi.jl_jacobi_hides",
    "CT.Props.JLJacobi.jl_jacobi_same"
   ],
   "note": ""
  },
  {
   "property": "C117",
   "status": "partial",
   "theorems": [
    "CT.Props.DES.des_parity_ignored_partial",
    "CT.Props.DES.des_unused_key_bits",
    "CT.Props.DES.des_first_round_key_iff",
    "CT.Props.DES.des_used_key_bits",
    "CT.Props.DES.des_key_bits_refuted"
   ],
   "note": "Proved that the parity bits are ignored and that 48 other bits count. Violated for the eight bits 6, 7, 11, 12, 43, 46, 50, 52: all rounds use the first round key (C49)."
  },
  {
   "property": "C118",
   "status": "partial",
   "theorems": [
    "CT.Props.ExampleAE.example2_iv_checked_partial",
    "CT.Props.ExampleAE.example1_iv_unchecked",
    "CT.Props.ExampleAE.example1_iv_refuted"
   ],
   "note": "Proved for section 2 up to coincidences of truncated tags. Violated by section 1 for every pair of IVs: the tag is reported as valid, the first block is wrong."
  },
  {
   "property": "C119",
   "status": "partial",
   "theorems": [
    "CT.Props.LHEKnown.lhe_known_message_reveals",
    "CT.Props.LHEKnown.lhe_label_values_distinct_partial",
    "CT.Props.LHEKnown.lhe_known_message_refuted",
    "CT.Props.LHEKnown.lhe_unknown_message_hides",
    "CT.Props.LHEKnown.mulhe_known_message_reveals",
    "CT.Props.LHEKnown.mulhe_label_values_distinct_partial",
    "CT.Props.LHEKnown.mulhe_known_message_refuted",
    "CT.Props.LHEKnown.mulhe_unknown_message_hides"
   ],
   "note": "Violated: the label value is the keystream xor the label, so one known message gives every other from the same keystream state. Proved that different labels have different label values, and that without a known message nothing is revealed by the label value."
  },
  {
   "property": "C12",
   "status": "proved",
   "theorems": [
    "CT.Props.MD5.md5_one_shot"
   ],
   "note": ""
  },
  {
   "property": "C120",
   "status": "partial",
   "theorems": [
    "CT.Props.DES.des_fixed_blocks",
    "CT.Props.DES.des_weak_refuted",
    "CT.Props.DES.des_ecb_encrypt_twice"
   ],
   "note": "Violated by every key: all rounds use the first round key, so encrypting twice gives back every message and there are exactly 2^32 blocks that are their own ciphertexts. No part of the property holds."
  },
  {
   "property": "C121",
   "status": "proved",
   "theorems": [
    "CT.Props.DES.des_complement",
    "CT.Props.DES.fips_complement"
   ],
   "note": ""
  },
  {
   "property": "C122",
   "status": "proved",
   "theorems": [
    "CT.Props.JLRerandomise.jl_sum_like_fresh"
   ],
   "note": ""
  },
  {
   "property": "C123",
   "status": "partial",
   "theorems": [
    "CT.Props.Overlap.chacha_overlap_partial",
    "CT.Props.Overlap.chacha_overlap_refuted",
    "CT.Props.Overlap.hc128_overlap_partial",
    "CT.Props.Overlap.hc128_overlap_refuted",
    "CT.Props.Overlap.rabbit_overlap_partial",
    "CT.Props.Overlap.rabbit_overlap_refuted",
    "CT.Props.Overlap.sosemanuk_overlap_partial",
    "CT.Props.Overlap.sosemanuk_overlap_refuted",
    "CT.Props.Overlap.aes_ctr_overlap_partial",
    "CT.Props.Overlap.aes_ctr_overlap_refuted",
    "CT.Props.Overlap.chacha_overlap_exact",
    "CT.Props.Overlap.hc128_overlap_exact",
    "CT.Props.Overlap.rabbit_overlap_exact",
    "CT.Props.Overlap.sosemanuk_overlap_exact",
    "CT.Props.Overlap.aes_ctr_overlap_exact"
   ],
   "note": "Proved if the output starts at or before the input or after its end. Violated if it starts four bytes or more after the input and inside it: the message bytes from there on are lost and the array shows the keystream. The _exact theorems say for which offsets every array is encrypted correctly: these, and single words (not with Rabbit). AES for sizes at which it is defined (C33)."
  },
  {
   "property": "C124",
   "status": "proved",
   "theorems": [
    "CT.Props.AES.aes_cfb_reuse"
   ],
   "note": ""
  },
  {
   "property": "C125",
   "status": "partial",
   "theorems": [
    "CT.Props.JLSizes.jl_sizes_partial",
    "CT.Props.JLSizes.jl_low_bits",
    "CT.Props.JLSizes.jl_sizes_low",
    "CT.Props.JLSizes.jl_sizes_undefined",
    "CT.Props.JLSizes.jl_sizes_refuted"
   ],
   "note": "Proved for decryption with at most the size used to encrypt (unless p divides the ciphertext). Violated if decryption uses a larger size than encryption: only the low bits are right. With a size whose power of two does not divide p - 1 the root used by decryption is not defined."
  },
  {
   "property": "C126",
   "status": "partial",
   "theorems": [
    "CT.Props.DES.des_reads_erase",
    "CT.Props.DES.des_block_reads_determine_cipher",
    "CT.Props.DES.des_ecb_reads_determine_cipher",
    "CT.Props.DES.des_ctr_reads_determine_cipher",
    "CT.Props.DES.des_key_schedule_reads_iff",
    "CT.Props.DES.des_reads_partial",
    "CT.Props.DES.des_reads_refuted"
   ],
   "note": "Violated: the reads of one block determine the cipher, and those of the key schedule the key up to parity bits. Proved: number and tables of the reads do not depend on the key."
  },
  {
   "property": "C127",
   "status": "partial",
   "theorems": [
    "CT.Props.SosemanukTrace.sosemanuk_reads_erase",
    "CT.Props.SosemanukTrace.sosemanuk_reads_determine_lfsr",
    "CT.Props.SosemanukTrace.sosemanuk_reads_partial",
    "CT.Props.SosemanukTrace.sosemanuk_reads_refuted"
   ],
   "note": "Violated: the reads of a packet of 80 bytes determine 320 of the 384 bits of the state. Proved: number and tables of the reads depend on the size only."
  },
  {
   "property": "C128",
   "status": "partial",
   "theorems": [
    "CT.Props.AEGISTrace.aegis_reads_erase",
    "CT.Props.AEGISTrace.aegis_reads_determine_key",
    "CT.Props.AEGISTrace.aegis_reads_partial",
    "CT.Props.AEGISTrace.aegis_reads_refuted"
   ],
   "note": "Violated: the first eighty reads determine the key and the IV. Proved: number and tables of the reads depend on the two lengths only."
  },
  {
   "property": "C129",
   "status": "partial",
   "theorems": [
    "CT.Props.LHEFresh.lhe_product_like_fresh",
    "CT.Props.LHEFresh.lhe_product3_like_fresh",
    "CT.Props.LHEFresh.lhe_multiple_like_fresh_refuted",
    "CT.Props.LHEFresh.lhe_multiple_zero",
    "CT.Props.LHEFresh.mu_product_like_fresh",
    "CT.Props.LHEFresh.mu_product3_like_fresh",
    "CT.Props.LHEFresh.mu_multiple_like_fresh_refuted",
    "CT.Props.LHEFresh.mu_multiple_zero"
   ],
   "note": "Proved for products of two and three factors. Violated by products with a constant: no random number is drawn, and the multiple by zero is always the pair (0, 1)."
  },
  {
   "property": "C13",
   "status": "partial",
   "theorems": [
    "CT.Props.MD5.md5_update_partial",
    "CT.Props.MD5.md5_update_ub_iff",
    "CT.Props.MD5.md5_update_refuted"
   ],
   "note": "The code violates the property when buffered bytes plus size reach 2^32. Proved otherwise; the failing sizes are characterised exactly."
  },
  {
   "property": "C130",
   "status": "partial",
   "theorems": [
    "CT.Props.OverlapBlock.aes_cfb_overlap_partial",
    "CT.Props.OverlapBlock.aes_cfb_overlap_refuted",
    "CT.Props.OverlapBlock.aegis_encrypt_overlap_partial",
    "CT.Props.OverlapBlock.aegis_decrypt_overlap_partial",
    "CT.Props.OverlapBlock.aegis_overlap_refuted",
    "CT.Props.OverlapBlock.des_overlap_partial",
    "CT.Props.OverlapBlock.des_ecb_overlap_refuted",
    "CT.Props.OverlapBlock.des_ctr_overlap_refuted"
   ],
   "note": "Proved if the output starts after the end of the input or at or before its start (AES-CFB encryption, AEGIS decryption, DES), or at least sixteen bytes before it (AES-CFB decryption, AEGIS encryption, which read the input again after writing; AEGIS with a size of 0 or at least 15). Violated elsewhere, with witnesses."
  },
  {
   "property": "C131",
   "status": "proved",
   "theorems": [
    "CT.Props.Collision.sha256_collision",
    "CT.Props.Collision.sha256_hash_copy_collision",
    "CT.Props.Collision.hmac_collision"
   ],
   "note": ""
  },
  {
   "property": "C132",
   "status": "partial",
   "theorems": [
    "CT.Props.Collision.md5_collision_partial",
    "CT.Props.Collision.md5_collision_refuted"
   ],
   "note": "Proved: a collision is one of the compression function. Violated: two messages of 128 bytes collide, with every common continuation."
  },
  {
   "property": "C133",
   "status": "proved",
   "theorems": [
    "CT.Props.RabbitPeriod.rabbit_no_return",
    "CT.Props.RabbitPeriod.rabbit_period_clean"
   ],
   "note": "The bound of 63*2^26 blocks holds for all runs, also those in which the code drops a carry; rabbit_period_clean has the bound 2^256-2 for runs without an exact sum."
  },
  {
   "property": "C134",
   "status": "partial",
   "theorems": [
    "CT.Props.RabbitPeriod.rabbit_iv_apart_partial"
   ],
   "note": "Except when the counters reach one particular pattern (Clash: each of the counters 1-7 is 0 in one state and all ones in the other, or sums to exactly 2^32 in one and 2^32-1 in the other). Whether a key reaches it is not known."
  },
  {
   "property": "C135",
   "status": "partial",
   "theorems": [
    "CT.Props.RabbitDebug.rabbit_rf_prints_partial",
    "CT.Props.RabbitDebug.rabbit_rf_shipped",
    "CT.Props.RabbitDebug.rabbit_rf_refuted"
   ],
   "note": "The code violates the property for keys with a counter sum of exactly 2^32 during key setup; proved for all others, and for the shipped key."
  },
  {
   "property": "C136",
   "status": "partial",
   "theorems": [
    "CT.Props.HexOverlap.hex_encode_overlap_partial",
    "CT.Props.HexOverlap.hex_encode_in_place_refuted",
    "CT.Props.HexOverlap.hex_decode_overlap"
   ],
   "note": "Decoding in place works; encoding in place does not. Both theorems say exactly for which offsets the result is right for all contents."
  },
  {
   "property": "C137",
   "status": "proved",
   "theorems": [
    "CT.Props.AEGISReuse.aegis_reuse"
   ],
   "note": ""
  },
  {
   "property": "C138",
   "status": "partial",
   "theorems": [
    "CT.Props.Align.align_chacha",
    "CT.Props.Align.align_hc128",
    "CT.Props.Align.align_rabbit",
    "CT.Props.Align.align_sosemanuk",
    "CT.Props.Align.align_aesCtr",
    "CT.Props.Align.align_cfb_partial",
    "CT.Props.Align.align_cfb_refuted",
    "CT.Props.Align.align_aegis_encrypt",
    "CT.Props.Align.align_aegis_decrypt"
   ],
   "note": "Violated by AES-CFB: with aligned buffers it reads misaligned words whenever the incomplete last block has more than four bytes; align_cfb_partial says exactly when it is defined."
  },
  {
   "property": "C139",
   "status": "proved",
   "theorems": [
    "CT.Props.Reinit.reinit_chacha",
    "CT.Props.Reinit.reinit_hc128",
    "CT.Props.Reinit.reinit_rabbit",
    "CT.Props.Reinit.reinit_serpent",
    "CT.Props.Reinit.reinit_aesCtr",
    "CT.Props.Reinit.reinit_aesCfb",
    "CT.Props.Reinit.reinit_des"
   ],
   "note": ""
  },
  {
   "property": "C14",
   "status": "proved",
   "theorems": [
    "CT.Props.ChaCha.chacha_packet_is_rfc7539",
    "CT.Props.ChaCha.chacha_block_is_rfc7539"
   ],
   "note": "any number of rounds; sizes below 2^31; after any history of packets"
  },
  {
   "property": "C140",
   "status": "partial",
   "theorems": [
    "CT.Props.AESCfbTail.aes_cfb_tail_exact",
    "CT.Props.AESCfbTail.aes_cfb_tail_standard_iff",
    "CT.Props.AESCfbTail.aes_cfb_tail_refuted",
    "CT.Props.AESCfbTail.aes_cfb_carry_partial",
    "CT.Props.AESCfbTail.aes_cfb_carry_portable",
    "CT.Props.AESCfbTail.aes_cfb_carry_refuted"
   ],
   "note": "False for the code. `aes_cfb_tail_exact` says which byte of the encrypted register is used for which byte, `aes_cfb_tail_standard_iff` when this agrees with the leading bytes, `aes_cfb_tail_refuted` is a packet for which it does not. `aes_cfb_carry_partial` is the register after whole blocks and after a remainder of four bytes in the x86 build, `aes_cfb_carry_portable` the exact register for this remainder in the other builds; for every other size and state `aes_cfb_carry_refuted` gives a packet with a wrong register."
  },
  {
   "property": "C141",
   "status": "partial",
   "theorems": [
    "CT.Props.Empty.chacha_empty",
    "CT.Props.Empty.hc128_empty",
    "CT.Props.Empty.rabbit_empty",
    "CT.Props.Empty.aes_ctr_empty",
    "CT.Props.Empty.aes_cfb_empty",
    "CT.Props.Empty.serpent_empty",
    "CT.Props.Empty.des_empty",
    "CT.Props.Empty.sessions_empty",
    "CT.Props.Empty.sosemanuk_empty_partial",
    "CT.Props.Empty.sosemanuk_empty_refuted"
   ],
   "note": "Holds for all ciphers but Sosemanuk, for which `sosemanuk_empty_partial` says what happens and `sosemanuk_empty_refuted` is a session in which it matters."
  },
  {
   "property": "C142",
   "status": "partial",
   "theorems": [
    "CT.Props.DES.des_ecb_equal_blocks",
    "CT.Props.DES.des_ctr_nonces_partial",
    "CT.Props.DES.des_ctr_pad_reused",
    "CT.Props.DES.des_ctr_nonces_refuted"
   ],
   "note": "The part on electronic codebook mode holds. Counter mode: `des_ctr_nonces_partial` for nonces that differ in the first two words, `des_ctr_pad_reused` what happens otherwise, `des_ctr_nonces_refuted` that the third word does not count."
  },
  {
   "property": "C143",
   "status": "partial",
   "theorems": [
    "CT.Props.HC128Trace.hc128_init_erase",
    "CT.Props.HC128Trace.hc128_packet_erase",
    "CT.Props.HC128Trace.hc128_reads_partial",
    "CT.Props.HC128Trace.hc128_init_reads_partial",
    "CT.Props.HC128Trace.hc128_init_reads_leak",
    "CT.Props.HC128Trace.hc128_init_reads_refuted",
    "CT.Props.HC128Trace.hc128_packet_reads_refuted"
   ],
   "note": "False for the code. `hc128_reads_partial`: the number of reads depends on the size only, and the places depend on the state exactly through two bytes of one word per step; `hc128_init_reads_partial` gives the reads of the initialisation exactly, and `hc128_init_reads_leak` that they show two bytes of the first 500 entries of both tables; the two refutations are keys for which the reads of the initialisation and of a packet differ."
  },
  {
   "property": "C144",
   "status": "partial",
   "theorems": [
    "CT.Props.AEGIS.aegis_second_key",
    "CT.Props.AEGIS.aegis_commitment_refuted",
    "CT.Props.AEGIS.aegis_commitment_partial"
   ],
   "note": "False for the code (and for AEGIS-128 itself). `aegis_second_key` is the second key for every packet, `aegis_commitment_refuted` the negation; `aegis_commitment_partial`: one message per ciphertext under one key, IV and associated data."
  },
  {
   "property": "C145",
   "status": "partial",
   "theorems": [
    "CT.Props.BigEndian.chacha_big_endian",
    "CT.Props.BigEndian.hc128_big_endian",
    "CT.Props.BigEndian.sha256_big_endian",
    "CT.Props.BigEndian.sha256_hash_big_endian",
    "CT.Props.BigEndian.hmac_big_endian",
    "CT.Props.BigEndian.byte_order_refuted",
    "CT.Props.BigEndian.byte_order_partial",
    "CT.Props.BigEndian.aes_ctr_big_endian",
    "CT.Props.BigEndian.aes_ctr_packets_big_endian",
    "CT.Props.BigEndian.sosemanuk_big_endian",
    "CT.Props.BigEndian.sosemanuk_byte_order_refuted",
    "CT.Props.BigEndian.byte_order_sessions_partial"
   ],
   "note": "False for the code. The first five theorems say exactly what the functions compute on a big-endian machine; `byte_order_refuted` is a ChaCha packet for which the two machines disagree; `byte_order_partial`: two big-endian machines understand each other. AES-CTR and Sosemanuk (32-byte keys) on a big-endian machine; `byte_order_sessions_partial`: sessions of HC-128, Sosemanuk and AES-CTR between two big-endian machines."
  },
  {
   "property": "C146",
   "status": "proved",
   "theorems": [
    "CT.Props.InPlace.sha256_in_place",
    "CT.Props.InPlace.sha256_chain",
    "CT.Props.InPlace.hmac_in_place",
    "CT.Props.InPlace.md5_in_place",
    "CT.Props.InPlace.md5_chain"
   ],
   "note": ""
  },
  {
   "property": "C147",
   "status": "partial",
   "theorems": [
    "CT.Props.GmpLeft.gmp_left_erase",
    "CT.Props.GmpLeft.gmp_left_count",
    "CT.Props.GmpLeft.gmp_left_unbounded",
    "CT.Props.GmpLeft.gmp_left_keygen",
    "CT.Props.GmpLeft.gmp_left_decrypt",
    "CT.Props.GmpLeft.gmp_left_decrypt_top",
    "CT.Props.GmpLeft.gmp_left_eval",
    "CT.Props.GmpLeft.gmp_left_he_decrypt",
    "CT.Props.GmpLeft.gmp_left_encrypt",
    "CT.Props.GmpLeft.gmp_left_he_encrypt",
    "CT.Props.GmpLeft.gmp_left_refuted",
    "CT.Props.GmpLeft.gmp_left_partial"
   ],
   "note": "False for the code. `gmp_left_count` and `gmp_left_unbounded` say exactly how much stays, `gmp_left_keygen` to `gmp_left_he_encrypt` what it tells; `gmp_left_refuted` is the negation, `gmp_left_partial` the two functions that leave nothing."
  },
  {
   "property": "C148",
   "status": "partial",
   "theorems": [
    "CT.Props.Stolen.hc128_stolen",
    "CT.Props.Stolen.hc128_stolen_key",
    "CT.Props.Stolen.rabbit_stolen",
    "CT.Props.Stolen.sosemanuk_stolen",
    "CT.Props.Stolen.roundKey_reveals",
    "CT.Props.Stolen.aes_ctr_stolen",
    "CT.Props.Stolen.aes_cfb_stolen",
    "CT.Props.Stolen.chacha_stolen",
    "CT.Props.Stolen.aegis_stolen",
    "CT.Props.Stolen.stolen_refuted",
    "CT.Props.Stolen.stolen_partial"
   ],
   "note": "False for the code, for all sessions: explicit programs compute the messages or the key from the object and the packets (`unsteps`, `rewind`, `recover`, `restart`, `unroll`). `stolen_partial`: after another initialisation the object is independent of what it did before."
  },
  {
   "property": "C149",
   "status": "partial",
   "theorems": [
    "CT.Props.AEGISArray.encryptParts_eq",
    "CT.Props.AEGISArray.decryptParts_eq",
    "CT.Props.AEGISArray.array_encrypt_partial",
    "CT.Props.AEGISArray.array_decrypt_partial",
    "CT.Props.AEGISArray.array_packet_partial",
    "CT.Props.AEGISArray.array_layout_partial",
    "CT.Props.AEGISArray.array_refuted"
   ],
   "note": "`array_encrypt_partial` and `array_decrypt_partial` give the whole array after the call, with IV, associated data and tag anywhere. Missing: messages of 1 to 14 bytes (undefined, C44) and message and ciphertext that overlap in the ways excluded in C130; `array_refuted` has a packet encrypted in place."
  },
  {
   "property": "C15",
   "status": "proved",
   "theorems": [
    "CT.Props.ChaCha.chacha_round_trip",
    "CT.Props.ChaCha.chacha_round_trip_in_place"
   ],
   "note": ""
  },
  {
   "property": "C150",
   "status": "partial",
   "theorems": [
    "CT.Props.HeapLeft.heap_left_erase",
    "CT.Props.HeapLeft.hmac_left",
    "CT.Props.HeapLeft.hmac_val_left",
    "CT.Props.HeapLeft.hmac_left_forge",
    "CT.Props.HeapLeft.chacha_left",
    "CT.Props.HeapLeft.chacha_left_opens",
    "CT.Props.HeapLeft.serpent_key_left",
    "CT.Props.HeapLeft.serpent_packet_left",
    "CT.Props.HeapLeft.serpent_packet_left_exact",
    "CT.Props.HeapLeft.serpent_key_long_left",
    "CT.Props.HeapLeft.sosemanuk_iv_left",
    "CT.Props.HeapLeft.sosemanuk_packet_left",
    "CT.Props.HeapLeft.sosemanuk_left_lfsr",
    "CT.Props.HeapLeft.aegis_left_partial",
    "CT.Props.HeapLeft.heap_left_refuted"
   ],
   "note": "False for the code. `hmac_left` to `sosemanuk_left_lfsr` say what is in the blocks and what it is good for, `heap_left_refuted` is the negation, `aegis_left_partial` the module for which it holds."
  },
  {
   "property": "C151",
   "status": "partial",
   "theorems": [
    "CT.Props.SosemanukBranch.sosemanuk_branch_erase",
    "CT.Props.SosemanukBranch.sosemanuk_branch_log",
    "CT.Props.SosemanukBranch.sosemanuk_branch_second",
    "CT.Props.SosemanukBranch.sosemanuk_branch_partial",
    "CT.Props.SosemanukBranch.sosemanuk_branch_refuted"
   ],
   "note": "False for the code: `sosemanuk_branch_log` and `sosemanuk_branch_second` say what the outcomes tell, `sosemanuk_branch_refuted` is the negation; `sosemanuk_branch_partial`: the number of outcomes depends on the size only."
  },
  {
   "property": "C152",
   "status": "partial",
   "theorems": [
    "CT.Props.HC128Short.hc128_small_packets_keep",
    "CT.Props.HC128Short.hc128_short_packets",
    "CT.Props.HC128Short.hc128_short_period",
    "CT.Props.HC128Short.hc128_short_known",
    "CT.Props.HC128Short.hc128_short_last",
    "CT.Props.HC128Short.hc128_short_last_period",
    "CT.Props.HC128Short.hc128_short_partial",
    "CT.Props.HC128Short.hc128_short_refuted"
   ],
   "note": "False for the code: `hc128_short_packets` gives the keystream of all sessions of packets of one to four bytes, `hc128_short_known` what a known packet opens, `hc128_short_last` is for packets of two or three words, `hc128_short_refuted` is the negation. `hc128_short_partial` says exactly which packets share their keystream word."
  },
  {
   "property": "C153",
   "status": "partial",
   "theorems": [
    "CT.Props.LHEShort.lhe_short_reveals",
    "CT.Props.LHEShort.mulhe_short_reveals",
    "CT.Props.LHEShort.lhe_short_refuted",
    "CT.Props.LHEShort.lhe_short_hides_partial",
    "CT.Props.LHEShort.mulhe_short_hides_partial"
   ],
   "note": "False for the code: `lhe_short_reveals` and `mulhe_short_reveals` for all sessions, with the computation `guess`; `lhe_short_refuted` is the negation for the parity. `lhe_short_hides_partial`: without a known message every value of the lowest word of every message is possible."
  },
  {
   "property": "C154",
   "status": "partial",
   "theorems": [
    "CT.Props.HC128Packets.hc128_packets_predict",
    "CT.Props.HC128Packets.hc128_packets_known",
    "CT.Props.HC128Packets.hc128_packets_refuted",
    "CT.Props.HC128Packets.hc128_packets_partial"
   ],
   "note": "False for the code: `hc128_packets_predict` gives the relation between consecutive packets, `hc128_packets_known` the bits known packets open, with the computation `attack`; `hc128_packets_refuted` is the negation. `hc128_packets_partial`: sessions of packets of multiples of 4096 bytes use the stream of the specification. Missing: what sizes above 2000 that are no such multiple reveal."
  },
  {
   "property": "C155",
   "status": "proved",
   "theorems": [
    "CT.Props.RabbitKeys.rabbit_key_counters",
    "CT.Props.RabbitKeys.rabbit_keys_apart"
   ],
   "note": "`rabbit_key_counters` says exactly which keys have the same counters after the set-up, `rabbit_keys_apart` that no two keys have the same state."
  },
  {
   "property": "C156",
   "status": "partial",
   "theorems": [
    "CT.Props.SosemanukKeys.sosemanuk_keys_exact",
    "CT.Props.SosemanukKeys.sosemanuk_equivalent_keys",
    "CT.Props.SosemanukKeys.sosemanuk_keys_partial",
    "CT.Props.SosemanukKeys.sosemanuk_keys_refuted"
   ],
   "note": "False for the code: `sosemanuk_equivalent_keys` gives the partner of every short key, `sosemanuk_keys_refuted` is the negation; `sosemanuk_keys_exact` characterises all equivalent pairs and `sosemanuk_keys_partial` is the part that holds."
  },
  {
   "property": "C157",
   "status": "partial",
   "theorems": [
    "CT.Props.Stack.sha256_stack",
    "CT.Props.Stack.sha256_hash_stack",
    "CT.Props.Stack.hmac_stack",
    "CT.Props.Stack.hmac_validation_stack",
    "CT.Props.Stack.hmac_key_stack",
    "CT.Props.Stack.hc128_stack",
    "CT.Props.Stack.stack_partial",
    "CT.Props.Stack.stack_refuted",
    "CT.Props.Stack.stack_8MiB"
   ],
   "note": "False for the code: `stack_refuted` for every size of the stack up to 1 GiB, `stack_8MiB` for the usual one. The other theorems give the exact need of each function; `stack_partial` is the part that holds. Counted are arrays and structures, not what a compiler adds."
  },
  {
   "property": "C158",
   "status": "partial",
   "theorems": [
    "CT.Props.HMACKeys.hmac_keys_exact",
    "CT.Props.HMACKeys.hmac_equivalent_keys",
    "CT.Props.HMACKeys.hmac_keys_partial",
    "CT.Props.HMACKeys.hmac_keys_refuted"
   ],
   "note": "False for the code (and for RFC 2104): `hmac_equivalent_keys`, `hmac_keys_refuted`. `hmac_keys_exact` says which keys leave the same object, `hmac_keys_partial` is the part that holds. That different objects give different tags for some message is not proved."
  },
  {
   "property": "C159",
   "status": "partial",
   "theorems": [
    "CT.Props.JLPublic.jl_public_low_bits",
    "CT.Props.JLPublic.jl_public_key_opens",
    "CT.Props.JLPublic.jl_public_candidates",
    "CT.Props.JLPublic.jl_public_meet",
    "CT.Props.JLPublic.jl_public_partial",
    "CT.Props.JLPublic.jl_public_refuted"
   ],
   "note": "False for the code: `jl_public_key_opens` for every key with q below 2^k, `jl_public_refuted` is the negation. `jl_public_low_bits`, `jl_public_candidates` and `jl_public_meet` say what every public key reveals, `jl_public_partial` that the division fails for larger q. That nothing faster exists cannot be expressed."
  },
  {
   "property": "C16",
   "status": "proved",
   "theorems": [
    "CT.Props.ChaCha.chacha_history_independent",
    "CT.Props.ChaCha.chacha_keystream_reuse"
   ],
   "note": ""
  },
  {
   "property": "C160",
   "status": "partial",
   "theorems": [
    "CT.Props.LoadOrder.rabbit_iv_first",
    "CT.Props.LoadOrder.sosemanuk_key_no_effect",
    "CT.Props.LoadOrder.sosemanuk_iv_first",
    "CT.Props.LoadOrder.load_order_partial",
    "CT.Props.LoadOrder.load_order_rabbit_refuted",
    "CT.Props.LoadOrder.load_order_sosemanuk_refuted"
   ],
   "note": "False for the code of Rabbit and Sosemanuk (`load_order_rabbit_refuted`, `load_order_sosemanuk_refuted`); `rabbit_iv_first`, `sosemanuk_key_no_effect` and `sosemanuk_iv_first` say what happens for all inputs. `load_order_partial` is the part that holds: AES-CTR."
  },
  {
   "property": "C161",
   "status": "partial",
   "theorems": [
    "CT.Props.DESSlide.des_slide_relation",
    "CT.Props.DESSlide.block_step",
    "CT.Props.DESSlide.mem_keysOf",
    "CT.Props.DESSlide.des_slide",
    "CT.Props.DESSlide.des_slide_partial"
   ],
   "note": "False for the code: `des_slide` for every key, with the computation `attack`; `des_slide_relation` is the relation it uses. `des_slide_partial` and `mem_keysOf` say which round keys one value of the round function leaves. How many pairs of blocks match by chance is not bounded."
  },
  {
   "property": "C162",
   "status": "partial",
   "theorems": [
    "CT.Props.JLTermination.jl_keygen_exact",
    "CT.Props.JLTermination.jl_keygen_q_ends",
    "CT.Props.JLTermination.jl_keygen_ends_partial",
    "CT.Props.JLTermination.jl_keygen_never_ends",
    "CT.Props.JLTermination.jl_keygen_ends_refuted",
    "CT.Props.JLTermination.jl_pickX_exact",
    "CT.Props.JLTermination.jl_encrypt_ends"
   ],
   "note": "False for the code with messages of 0 bits (`jl_keygen_never_ends`, `jl_keygen_ends_refuted`). `jl_keygen_exact` says for all draws when key generation ends and with which key; `jl_keygen_q_ends` and `jl_encrypt_ends` are the loops that always end. `jl_keygen_ends_partial` assumes a suitable prime exists from the draw on, which for k > 0 is an open conjecture."
  },
  {
   "property": "C163",
   "status": "partial",
   "theorems": [
    "CT.Props.JLDebug.jl_debug_erase",
    "CT.Props.JLDebug.jl_debug_text",
    "CT.Props.JLDebug.jl_debug_opens",
    "CT.Props.JLDebug.jl_debug_checks"
   ],
   "note": "False for the code: `jl_debug_opens` and `jl_debug_checks` for all keys and messages, with the computations `readP` and `checks`. `jl_debug_erase` is the part that holds, `jl_debug_text` the exact text of key generation. AES-CTR has `DEBUG` code too, but it calls a function that does not exist."
  },
  {
   "property": "C164",
   "status": "partial",
   "theorems": [
    "CT.Props.AESReduced.reduced_block",
    "CT.Props.AESReduced.reduced_ignored",
    "CT.Props.AESReduced.reduced_first_six_refuted",
    "CT.Props.AESReduced.reduced_cfb_partial",
    "CT.Props.AESReduced.reduced_same_build_partial",
    "CT.Props.AESReduced.reduced_mixed_block",
    "CT.Props.AESReduced.reduced_interoperate_refuted",
    "CT.Props.AESReduced.reduced_ctr_partial",
    "CT.Props.AESReduced.reduced_ctr_refuted"
   ],
   "note": "False for the code across builds (`reduced_interoperate_refuted`, `reduced_ctr_refuted`, for both instruction sets; `reduced_mixed_block` says what is seen instead) and for the usual six-round AES (`reduced_first_six_refuted`). `reduced_block` and `reduced_ignored` are exact for all keys and blocks. The sizes left out are those where the modes are wrong without the flag too (C33, C36)."
  },
  {
   "property": "C165",
   "status": "partial",
   "theorems": [
    "CT.Props.ChosenCiphertext.jl_chosen_ciphertext",
    "CT.Props.ChosenCiphertext.jl_chosen_ciphertext_encrypt",
    "CT.Props.ChosenCiphertext.jl_chosen_ciphertext_range",
    "CT.Props.ChosenCiphertext.jl_answers_divide",
    "CT.Props.ChosenCiphertext.lhe_chosen_ciphertext",
    "CT.Props.ChosenCiphertext.mu_chosen_ciphertext",
    "CT.Props.ChosenCiphertext.lhe_chosen_product",
    "CT.Props.ChosenCiphertext.mu_chosen_product"
   ],
   "note": "False for the code, for every key: the attackers `attackY`, `attackN`, `attackL` and `attackM` see the public values, the ciphertext and one answer of a receiver that refuses it. For Joye-Libert ciphertexts that p divides `jl_chosen_ciphertext` says nothing; decryption gives 2^k - 1 for all of them."
  },
  {
   "property": "C166",
   "status": "partial",
   "theorems": [
    "CT.Props.SameState.jl_same_state_relation",
    "CT.Props.SameState.jl_same_state_equal",
    "CT.Props.SameState.jl_same_state_opens",
    "CT.Props.SameState.jl_state_opens",
    "CT.Props.SameState.lhe_state_opens",
    "CT.Props.SameState.mu_state_opens",
    "CT.Props.SameState.mu_users_share_key"
   ],
   "note": "False for the code, for every key and generator. The computations `guess`, `compare` and `guessL` search through the 2^k messages. Where p divides a ciphertext they say nothing, since then decryption fails too (C53). That two runs start from one state is `Env.init`, what gmp_randinit_mt gives."
  },
  {
   "property": "C17",
   "status": "partial",
   "theorems": [
    "CT.Props.ChaCha.chacha_every_size_partial",
    "CT.Props.ChaCha.chacha_two_gib_not_encrypted",
    "CT.Props.ChaCha.chacha_every_size_refuted",
    "CT.Props.ChaCha.chacha_every_size_exact"
   ],
   "note": "The code violates the property: packets of 2^31..2^32-1 bytes are left unencrypted. Proved below 2^31, refuted in general; the exact behaviour for every size is proved."
  },
  {
   "property": "C18",
   "status": "proved",
   "theorems": [
    "CT.Props.HC128.hc128_first_packet_is_spec"
   ],
   "note": "sizes up to 2^33-8, beyond which the int loop counter overflows"
  },
  {
   "property": "C19",
   "status": "proved",
   "theorems": [
    "CT.Props.HC128.hc128_lockstep_round_trip"
   ],
   "note": ""
  },
  {
   "property": "C20",
   "status": "partial",
   "theorems": [
    "CT.Props.HC128.hc128_continuation_partial",
    "CT.Props.HC128.hc128_continuation_refuted"
   ],
   "note": "The code violates the property: the step counter restarts with each packet. Proved when the first packet is a multiple of 4096 bytes, refuted in general."
  },
  {
   "property": "C21",
   "status": "partial",
   "theorems": [
    "CT.Props.Rabbit.rabbit_rfc4503_partial",
    "CT.Props.Rabbit.rabbit_rfc4503_refuted",
    "CT.Props.Rabbit.rabbit_exact",
    "CT.Props.Rabbit.rabbit_rfc4503_session_partial"
   ],
   "note": "The code violates the property (carry dropped when a counter sum is exactly 2^32). Proved for all runs without such a sum, and for sessions of any length with or without IV; refuted with a concrete key. `rabbit_exact` says without hypotheses what the code computes in every session: RFC 4503 with two rules changed."
  },
  {
   "property": "C22",
   "status": "partial",
   "theorems": [
    "CT.Props.Rabbit.rabbit_iv_resync_partial",
    "CT.Props.Rabbit.rabbit_iv_resync_two_states",
    "CT.Props.Rabbit.rabbit_iv_resync_refuted"
   ],
   "note": "The code violates the property (carry bit not restored by the IV load). Proved when the carry bit agrees; refuted with a concrete history."
  },
  {
   "property": "C23",
   "status": "proved",
   "theorems": [
    "CT.Props.Rabbit.rabbit_lockstep_round_trip"
   ],
   "note": ""
  },
  {
   "property": "C24",
   "status": "proved",
   "theorems": [
    "CT.Props.Rabbit.rabbit_continuation",
    "CT.Props.Rabbit.rabbit_continuation_blocks"
   ],
   "note": ""
  },
  {
   "property": "C25",
   "status": "proved",
   "theorems": [
    "CT.Props.Serpent.serpent_sboxes",
    "CT.Props.Serpent.serpent_serpent1"
   ],
   "note": ""
  },
  {
   "property": "C26",
   "status": "proved",
   "theorems": [
    "CT.Props.Serpent.serpent24_conforms"
   ],
   "note": ""
  },
  {
   "property": "C27",
   "status": "partial",
   "theorems": [
    "CT.Props.Serpent.serpent_collisions_exact",
    "CT.Props.Serpent.serpent_schedules_differ_partial",
    "CT.Props.Serpent.serpent_schedules_differ_refuted",
    "CT.Props.Serpent.serpent_padding_refuted",
    "CT.Props.Serpent.serpent_key_length"
   ],
   "note": "The code violates the property: short keys are padded with 0x80 instead of 0x01, and a 32-byte key can collide with a shorter one. Colliding keys are characterised exactly."
  },
  {
   "property": "C28",
   "status": "partial",
   "theorems": [
    "CT.Props.Sosemanuk.sosemanuk_conforms_partial",
    "CT.Props.Sosemanuk.sosemanuk_fsm_exact",
    "CT.Props.Sosemanuk.sosemanuk_lfsr_conforms",
    "CT.Props.Sosemanuk.sosemanuk_conforms_refuted"
   ],
   "note": "The code violates the property (update of the finite state machine). Proved: everything else conforms for 32-byte keys; the states in which the update is right are characterised exactly; refuted with a concrete key and IV."
  },
  {
   "property": "C29",
   "status": "proved",
   "theorems": [
    "CT.Props.Sosemanuk.sosemanuk_lockstep_round_trip"
   ],
   "note": ""
  },
  {
   "property": "C30",
   "status": "partial",
   "theorems": [
    "CT.Props.Sosemanuk.sosemanuk_continuation_exact",
    "CT.Props.Sosemanuk.sosemanuk_continuation_partial",
    "CT.Props.Sosemanuk.sosemanuk_continuation_refuted"
   ],
   "note": "The code violates the property: after whole blocks one more block of keystream is discarded. The offset is characterised exactly."
  },
  {
   "property": "C31",
   "status": "proved",
   "theorems": [
    "CT.Props.AES.aes_key_expansion_fips",
    "CT.Props.AES.aes_block_fips"
   ],
   "note": "without ROUND_REDUCED, which is not the default"
  },
  {
   "property": "C32",
   "status": "proved",
   "theorems": [
    "CT.Props.AES.aes_variants_agree",
    "CT.Props.AES.aes_ctr_variants_agree",
    "CT.Props.AES.aes_round_reduced_differs"
   ],
   "note": "hardware instructions by their manual semantics; aes_round_reduced_differs shows the flag is a real restriction"
  },
  {
   "property": "C33",
   "status": "partial",
   "theorems": [
    "CT.Props.AES.aes_ctr_sp800_38a_partial",
    "CT.Props.AES.aes_ctr_sp800_38a_iff",
    "CT.Props.AES.aes_ctr_sp800_38a_refuted"
   ],
   "note": "The code violates the property for sizes not a multiple of 4 (wrong keystream byte, or undefined shift). Proved for all other sizes; characterised exactly; refuted in general."
  },
  {
   "property": "C34",
   "status": "partial",
   "theorems": [
    "CT.Props.AES.aes_ctr_lockstep_partial",
    "CT.Props.AES.aes_ctr_ub_iff",
    "CT.Props.AES.aes_ctr_lockstep_refuted"
   ],
   "note": "The code violates the property for sizes 2 and 3 mod 4 (undefined shift). Proved for all other sizes; characterised exactly."
  },
  {
   "property": "C35",
   "status": "proved",
   "theorems": [
    "CT.Props.AES.aes_ctr_blocks_distinct",
    "CT.Props.AES.ctrTraced_erase",
    "CT.Props.AES.aes_ctr_period",
    "CT.Props.AES.aes_ctr_continuation"
   ],
   "note": "up to 2^32 blocks per nonce, which is sharp"
  },
  {
   "property": "C36",
   "status": "partial",
   "theorems": [
    "CT.Props.AES.aes_cfb_lockstep_partial",
    "CT.Props.AES.aes_cfb_ub_iff",
    "CT.Props.AES.aes_cfb_lockstep_refuted"
   ],
   "note": "The code violates the property for sizes 2 and 3 mod 4 (undefined shift). Proved for all other sizes and all three builds; characterised exactly."
  },
  {
   "property": "C37",
   "status": "proved",
   "theorems": [
    "CT.Props.AES.aes_cfb_sp800_38a"
   ],
   "note": ""
  },
  {
   "property": "C38",
   "status": "partial",
   "theorems": [
    "CT.Props.AES.aes_cfb_interoperate_partial",
    "CT.Props.AES.aes_cfb_interoperate_arm_partial",
    "CT.Props.AES.aes_cfb_variants_one_packet",
    "CT.Props.AES.aes_cfb_arm_is_portable",
    "CT.Props.AES.aes_cfb_interoperate_refuted"
   ],
   "note": "The code violates the property: after an incomplete block the x86 build is in another state. Proved for whole-block packets followed by one of any defined size, and without restriction between portable and ARM."
  },
  {
   "property": "C39",
   "status": "partial",
   "theorems": [
    "CT.Props.AES.aes_cfb_self_sync_partial",
    "CT.Props.AES.aes_cfb_self_sync_needs_block",
    "CT.Props.AES.aes_cfb_ub_iff"
   ],
   "note": "Missing: sizes 2 and 3 mod 4, which are undefined behaviour. Proved for all other packet sequences."
  },
  {
   "property": "C40",
   "status": "partial",
   "theorems": [
    "CT.Props.AES.aes_cfb_in_place_encrypt",
    "CT.Props.AES.aes_cfb_in_place_decrypt_partial",
    "CT.Props.AES.aes_cfb_in_place_mode_ignored",
    "CT.Props.AES.aes_cfb_in_place_decrypt_refuted"
   ],
   "note": "The code violates the property for decryption (the register is loaded from the overwritten input). Proved for encryption; decryption only for the output of packets up to one block."
  },
  {
   "property": "C41",
   "status": "partial",
   "theorems": [
    "CT.Props.AEGIS.aegis_round_trip_partial",
    "CT.Props.AEGIS.aegis_round_trip_refuted"
   ],
   "note": "The code violates the property for messages of 1 to 14 bytes (undefined, see C44). Proved for all other lengths, between any two builds, also decrypting in place."
  },
  {
   "property": "C42",
   "status": "partial",
   "theorems": [
    "CT.Props.AEGIS.aegis_decrypt_decides_partial",
    "CT.Props.AEGIS.aegis_decrypt_ub_iff"
   ],
   "note": "Missing: ciphertexts of 1 to 14 bytes, which are undefined behaviour. Proved for all other lengths."
  },
  {
   "property": "C43",
   "status": "partial",
   "theorems": [
    "CT.Props.AEGIS.aegis_conforms_partial",
    "CT.Props.AEGIS.aegis_encrypt_ub_iff",
    "CT.Props.AEGIS.aegis_ad_ub"
   ],
   "note": "Missing: messages of 1 to 14 bytes and associated data above 2^33 bytes, which are undefined behaviour. Proved otherwise."
  },
  {
   "property": "C44",
   "status": "partial",
   "theorems": [
    "CT.Props.AEGIS.aegis_encrypt_ub_iff",
    "CT.Props.AEGIS.aegis_decrypt_ub_iff",
    "CT.Props.AEGIS.aegis_every_length_refuted",
    "CT.Props.AEGIS.aegis_ad_ub"
   ],
   "note": "The code violates the property: exactly the lengths 1 to 14 run out of the buffers."
  },
  {
   "property": "C45",
   "status": "partial",
   "theorems": [
    "CT.Props.AEGIS.aegis_decrypt_in_place",
    "CT.Props.AEGIS.aegis_encrypt_in_place_partial",
    "CT.Props.AEGIS.aegis_encrypt_in_place_exact",
    "CT.Props.AEGIS.aegis_encrypt_in_place_refuted",
    "CT.Props.AEGIS.aegis_in_place_rejected"
   ],
   "note": "The code violates the property for encryption of 16 bytes and more (ciphertext instead of plaintext is absorbed; receivers reject). Proved for decryption."
  },
  {
   "property": "C46",
   "status": "proved",
   "theorems": [
    "CT.Props.AEGIS.aegis_history_independent",
    "CT.Props.AEGIS.aegis_key_only",
    "CT.Props.AEGIS.aegis_encrypt_keeps_key",
    "CT.Props.AEGIS.aegis_decrypt_keeps_key"
   ],
   "note": ""
  },
  {
   "property": "C47",
   "status": "proved",
   "theorems": [
    "CT.Props.AEGIS.aegis_variants_agree"
   ],
   "note": "hardware instructions by their manual semantics"
  },
  {
   "property": "C48",
   "status": "partial",
   "theorems": [
    "CT.Props.DES.des_ecb_inverse_partial",
    "CT.Props.DES.des_ecb_encrypt_twice",
    "CT.Props.DES.des_ecb_inverse_refuted"
   ],
   "note": "The code violates the property (only the first round key of a schedule is used). Proved for keys whose first and last round keys coincide; refuted with a concrete key. des_ecb_encrypt_twice: encryption is its own inverse."
  },
  {
   "property": "C49",
   "status": "partial",
   "theorems": [
    "CT.Props.DES.des_block_fips_partial",
    "CT.Props.DES.des_schedule_fips",
    "CT.Props.DES.des_weak_keys_fips_partial",
    "CT.Props.DES.des_fips_refuted"
   ],
   "note": "The code violates the property. Proved: the block function is the FIPS network with K_1 in every round (bytes of each word reversed), and the stored schedule is the FIPS one; refuted with a concrete key."
  },
  {
   "property": "C50",
   "status": "proved",
   "theorems": [
    "CT.Props.DES.des_ctr_round_trip"
   ],
   "note": "packets of whole blocks; other sizes are C52"
  },
  {
   "property": "C51",
   "status": "partial",
   "theorems": [
    "CT.Props.DES.des_ctr_keystream_repeats",
    "CT.Props.DES.des_ctr_distinct_refuted",
    "CT.Props.DES.des_ctr_nonce_ignored"
   ],
   "note": "The property is false: every keystream block of a packet is the same. Nothing positive is claimed."
  },
  {
   "property": "C52",
   "status": "partial",
   "theorems": [
    "CT.Props.DES.des_ecb_bounds_iff",
    "CT.Props.DES.des_ctr_bounds_iff",
    "CT.Props.DES.des_packet_frame_partial",
    "CT.Props.DES.des_bounds_refuted"
   ],
   "note": "The code violates the property for sizes that are not multiples of 8; the sizes that are safe are characterised exactly."
  },
  {
   "property": "C53",
   "status": "partial",
   "theorems": [
    "CT.Props.JoyeLibert.jl_round_trip_exact",
    "CT.Props.JoyeLibert.jl_round_trip_partial",
    "CT.Props.JoyeLibert.jl_bad_coins",
    "CT.Props.JoyeLibert.jl_round_trip_refuted"
   ],
   "note": "The code violates the property: the coin is only checked to be non-zero, and multiples of p make the message come out as all ones. Exact outcome proved for every coin."
  },
  {
   "property": "C54",
   "status": "partial",
   "theorems": [
    "CT.Props.JoyeLibert.jl_homomorphic_partial",
    "CT.Props.JoyeLibert.jl_homomorphic_ciphertexts",
    "CT.Props.JoyeLibert.jl_encrypt_is_ciphertext",
    "CT.Props.JoyeLibert.jl_homomorphic_refuted"
   ],
   "note": "Proved for encryptions coprime to N. The code violates the property for the others, which encryption can produce."
  },
  {
   "property": "C55",
   "status": "proved",
   "theorems": [
    "CT.Props.JoyeLibert.jl_keygen_post"
   ],
   "note": "given that the probabilistic primality test is right about the numbers it accepts, and that the search ends"
  },
  {
   "property": "C56",
   "status": "partial",
   "theorems": [
    "CT.Props.LHE.lhe_fresh_exact",
    "CT.Props.LHE.lhe_fresh_partial",
    "CT.Props.LHE.lhe_fresh_refuted"
   ],
   "note": "Proved if beta is not a multiple of p; the code violates the property otherwise (see C53). Exact outcome proved."
  },
  {
   "property": "C57",
   "status": "partial",
   "theorems": [
    "CT.Props.LHE.lhe_linear_partial",
    "CT.Props.LHE.lhe_linear_total",
    "CT.Props.LHE.lhe_linear_refuted"
   ],
   "note": "Proved for fresh ciphertexts with beta coprime to N. The code violates the property otherwise."
  },
  {
   "property": "C58",
   "status": "partial",
   "theorems": [
    "CT.Props.LHE.lhe_product_partial",
    "CT.Props.LHE.lhe_product_total",
    "CT.Props.LHE.lhe_product_refuted"
   ],
   "note": "Proved for ciphertexts coprime to N. The code violates the property otherwise."
  },
  {
   "property": "C59",
   "status": "partial",
   "theorems": [
    "CT.Props.LHE.lhe_label_value_partial",
    "CT.Props.LHE.lhe_label_memory_refuted",
    "CT.Props.LHE.lhe_label_history_refuted"
   ],
   "note": "The code violates the property: label values depend on uninitialised memory and on earlier encryptions. Proved for the first encryption with a label that fills the buffer."
  },
  {
   "property": "C60",
   "status": "partial",
   "theorems": [
    "CT.Props.MuLHE.mulhe_key_transport_exact",
    "CT.Props.MuLHE.mulhe_key_transport_partial",
    "CT.Props.MuLHE.mulhe_key_transport_refuted"
   ],
   "note": "Proved for messages of 128 bits and more. The code violates the property for the message sizes its programs use."
  },
  {
   "property": "C61",
   "status": "partial",
   "theorems": [
    "CT.Props.MuLHE.mulhe_fresh_exact",
    "CT.Props.MuLHE.mulhe_fresh_partial",
    "CT.Props.MuLHE.mulhe_fresh_refuted",
    "CT.Props.MuLHE.mulhe_linear_partial",
    "CT.Props.MuLHE.mulhe_linear_total",
    "CT.Props.MuLHE.mulhe_linear_refuted",
    "CT.Props.MuLHE.mulhe_product_partial",
    "CT.Props.MuLHE.mulhe_product_total",
    "CT.Props.MuLHE.mulhe_product_refuted",
    "CT.Props.MuLHE.mulhe_label_value_partial",
    "CT.Props.MuLHE.mulhe_label_memory_refuted",
    "CT.Props.MuLHE.mulhe_label_history_refuted",
    "CT.Props.MuLHE.mulhe_label_bounds_iff",
    "CT.Props.MuLHE.mulhe_label_bounds_refuted",
    "CT.Props.MuLHE.mulhe_decrypt_shared_exact",
    "CT.Props.MuLHE.mulhe_decrypt_shared_refuted"
   ],
   "note": "Proved for ciphertexts coprime to N; the code violates the property otherwise, as for the single-user scheme."
  },
  {
   "property": "C62",
   "status": "partial",
   "theorems": [
    "CT.Props.ExampleAE.example1_rejects",
    "CT.Props.ExampleAE.example1_release_needs_tag_partial",
    "CT.Props.ExampleAE.example2_always_releases",
    "CT.Props.ExampleAE.example2_release_refuted"
   ],
   "note": "Proved for section 1 (non-empty ciphertexts). The code violates the property in section 2, which decrypts every message and prints Valid tag!."
  },
  {
   "property": "C63",
   "status": "proved",
   "theorems": [
    "CT.Props.Poly1305.clamp_rfc7539",
    "CT.Props.Poly1305.clamp_bits",
    "CT.Props.Poly1305.clamp_idempotent"
   ],
   "note": "the rest of Poly1305 does not exist in the code"
  },
  {
   "property": "C64",
   "status": "partial",
   "theorems": [
    "CT.Props.Rabbit.rabbit_signed_overflow_reachable",
    "CT.Props.Rabbit.rabbit_overflow_iff",
    "CT.Props.Rabbit.rabbit_next_defined_partial"
   ],
   "note": "The property is false: an ordinary call overflows. Proved exactly when a step overflows; which keys lead there is not characterised."
  },
  {
   "property": "C65",
   "status": "partial",
   "theorems": [
    "CT.Props.ExampleAE.example1_round_trip_partial",
    "CT.Props.ExampleAE.example2_round_trip",
    "CT.Props.ExampleAE.example1_shipped_plaintext_ub"
   ],
   "note": "Proved for section 2, and for section 1 with sizes 0 and 1 mod 4. False for the plaintext shipped in section 1 (71 bytes): undefined shift."
  },
  {
   "property": "C66",
   "status": "partial",
   "theorems": [
    "CT.Props.Serpent.serpent_packet_ub_iff",
    "CT.Props.Serpent.serpent_packet_output_size_refuted",
    "CT.Props.Serpent.serpent_packet_two_blocks_refuted"
   ],
   "note": "The code violates the property: only sizes 0 and 16 are defined, and 48 bytes are written for 16."
  },
  {
   "property": "C67",
   "status": "proved",
   "theorems": [
    "CT.Props.Serpent.serpent_permutation"
   ],
   "note": ""
  },
  {
   "property": "C68",
   "status": "proved",
   "theorems": [
    "CT.Props.Sosemanuk.sosemanuk_iv_injective"
   ],
   "note": ""
  },
  {
   "property": "C69",
   "status": "partial",
   "theorems": [
    "CT.Props.Sosemanuk.spec_fsm_injective",
    "CT.Props.Sosemanuk.sosemanuk_states_merge_refuted"
   ],
   "note": "The code violates the property: states that differ in the upper 31 bits of R1 only are merged by every packet. Proved for the specification's state machine."
  },
  {
   "property": "C70",
   "status": "proved",
   "theorems": [
    "CT.Props.Sosemanuk.sosemanuk_iv_resync"
   ],
   "note": ""
  },
  {
   "property": "C71",
   "status": "partial",
   "theorems": [
    "CT.Props.JoyeLibert.jl_modulus_size_partial",
    "CT.Props.JoyeLibert.jl_modulus_size_refuted"
   ],
   "note": "The code violates the property: the top bits of the primes are not set. Proved if the numbers drawn have their top bit set."
  },
  {
   "property": "C72",
   "status": "partial",
   "theorems": [
    "CT.Props.JoyeLibert.jl_in_place_exact",
    "CT.Props.JoyeLibert.jl_in_place_refuted"
   ],
   "note": "The code violates the property: the result is always the all-ones message."
  },
  {
   "property": "C73",
   "status": "partial",
   "theorems": [
    "CT.Props.LHE.lhe_decrypt_shared_exact",
    "CT.Props.LHE.lhe_decrypt_shared_refuted"
   ],
   "note": "The code violates the property. Exact outcome proved for both kinds of sharing."
  },
  {
   "property": "C74",
   "status": "partial",
   "theorems": [
    "CT.Props.LHE.lhe_label_bounds_iff",
    "CT.Props.LHE.lhe_label_bounds_refuted"
   ],
   "note": "The code violates the property: exactly the labels longer than the message size are written past the end."
  },
  {
   "property": "C75",
   "status": "proved",
   "theorems": [
    "CT.Props.Serpent32.serpent32_conforms"
   ],
   "note": "32-byte keys; shorter ones are C27"
  },
  {
   "property": "C76",
   "status": "proved",
   "theorems": [
    "CT.Props.Serpent32.serpent32_permutation",
    "CT.Props.Serpent32.serpent32_packet_ub_iff"
   ],
   "note": "one block per call, which is all that is defined (serpent32_packet_ub_iff)"
  },
  {
   "property": "C77",
   "status": "proved",
   "theorems": [
    "CT.Props.HC128.hc128_states_never_merge"
   ],
   "note": "packets up to 2^33-8 bytes, as for C19"
  },
  {
   "property": "C78",
   "status": "proved",
   "theorems": [
    "CT.Props.HC128.hc128_sessions_differ"
   ],
   "note": ""
  },
  {
   "property": "C79",
   "status": "proved",
   "theorems": [
    "CT.Props.AES.aes_block_permutation"
   ],
   "note": ""
  },
  {
   "property": "C80",
   "status": "proved",
   "theorems": [
    "CT.Props.AES.aes_ctr_keystream_blocks_distinct"
   ],
   "note": ""
  },
  {
   "property": "C81",
   "status": "partial",
   "theorems": [
    "CT.Props.Stream.chacha_cut_off",
    "CT.Props.Stream.hc128_cut_off",
    "CT.Props.Stream.rabbit_cut_off",
    "CT.Props.Stream.sosemanuk_cut_off",
    "CT.Props.Stream.aes_ctr_cut_off_partial",
    "CT.Props.Stream.aes_ctr_cut_off_refuted"
   ],
   "note": "Proved for ChaCha, HC-128, Rabbit and Sosemanuk. AES-CTR violates the property unless m is a multiple of four."
  },
  {
   "property": "C82",
   "status": "proved",
   "theorems": [
    "CT.Props.Stream.chacha_flips_only",
    "CT.Props.Stream.hc128_flips_only",
    "CT.Props.Stream.rabbit_flips_only",
    "CT.Props.Stream.sosemanuk_flips_only",
    "CT.Props.Stream.aes_ctr_flips_only"
   ],
   "note": "for the packet sizes that are defined (C17, C34)"
  },
  {
   "property": "C83",
   "status": "proved",
   "theorems": [
    "CT.Props.Hex.hex_decode_bounds_iff",
    "CT.Props.Hex.hex_decode_frame"
   ],
   "note": ""
  },
  {
   "property": "C84",
   "status": "partial",
   "theorems": [
    "CT.Props.ByteSwap.byte_swap_in_place_partial",
    "CT.Props.ByteSwap.byte_swap_exact",
    "CT.Props.ByteSwap.byte_swap_twice",
    "CT.Props.ByteSwap.byte_swap_refuted"
   ],
   "note": "Proved in place, the way the library calls it. Violated for two buffers: the code writes the reversed words through the input pointer and never writes the output."
  },
  {
   "property": "C85",
   "status": "proved",
   "theorems": [
    "CT.Props.Programs.chacha_main_prints",
    "CT.Props.Programs.chacha_cipher_test_prints"
   ],
   "note": "Messages below 2^30 bytes; key and nonce texts in upper case (C02)."
  },
  {
   "property": "C86",
   "status": "proved",
   "theorems": [
    "CT.Props.Programs.chacha_block_test_prints",
    "CT.Props.Programs.chacha_quarter_test_prints"
   ],
   "note": ""
  },
  {
   "property": "C87",
   "status": "proved",
   "theorems": [
    "CT.Props.Programs.hc128_main_prints",
    "CT.Props.Programs.sosemanuk_main_prints",
    "CT.Props.Programs.sosemanuk_main_long_key"
   ],
   "note": "Key and IV texts in upper case (C02)."
  },
  {
   "property": "C88",
   "status": "partial",
   "theorems": [
    "CT.Props.Programs.rabbit_main_first",
    "CT.Props.Programs.rabbit_main_prints_partial",
    "CT.Props.Programs.rabbit_main_shipped",
    "CT.Props.Programs.rabbit_main_refuted"
   ],
   "note": "The first message is always recovered, the second with the shipped texts and whenever the message in between leaves the carry bit as it was. Violated for other texts: loading an IV keeps the carry bit (C22)."
  },
  {
   "property": "C89",
   "status": "proved",
   "theorems": [
    "CT.Props.Programs.rabbit_print_key",
    "CT.Props.Programs.rabbit_print_state"
   ],
   "note": ""
  },
  {
   "property": "C90",
   "status": "partial",
   "theorems": [
    "CT.Props.Programs.sha256_main_refuted"
   ],
   "note": "Violated for every message: the array for the hexadecimal text has 64 bytes and a zero byte is written behind it. No part of the claim holds, so there is no _partial theorem; what the hash function itself returns is C03."
  },
  {
   "property": "C91",
   "status": "proved",
   "theorems": [
    "CT.Props.Programs.hmac_main_prints",
    "CT.Props.Programs.hmac_main_shipped"
   ],
   "note": ""
  },
  {
   "property": "C92",
   "status": "proved",
   "theorems": [
    "CT.Props.Programs.md5_main_prints"
   ],
   "note": ""
  },
  {
   "property": "C93",
   "status": "proved",
   "theorems": [
    "CT.Props.Programs.serpent_main_prints"
   ],
   "note": ""
  },
  {
   "property": "C94",
   "status": "partial",
   "theorems": [
    "CT.Props.Programs.aes_cfb_main_partial",
    "CT.Props.Programs.aes_cfb_main_ub",
    "CT.Props.Programs.aes_cfb_main_refuted"
   ],
   "note": "Proved for plaintexts whose size is 0 or 1 modulo 4. Violated for all others (a shift by 32), among them the shipped text of the portable program."
  },
  {
   "property": "C95",
   "status": "partial",
   "theorems": [
    "CT.Props.Programs.des_main_partial",
    "CT.Props.Programs.des_main_refuted"
   ],
   "note": "Proved up to byte order for keys whose round keys coincide, such as the zero key of the program. Violated by the shipped program because of the byte order."
  },
  {
   "property": "C96",
   "status": "partial",
   "theorems": [
    "CT.Props.Programs.des_ctr_main_refuted"
   ],
   "note": "Violated for every key: four equal blocks give four equal blocks of ciphertext. No part of the claim holds for messages of this form."
  },
  {
   "property": "C97",
   "status": "partial",
   "theorems": [
    "CT.Props.Programs.ctr_vectors_partial",
    "CT.Props.Programs.ctr_vectors_exact",
    "CT.Props.Programs.ctr_vectors_ub_iff",
    "CT.Props.Programs.ctr_vectors_refuted",
    "CT.Props.Programs.ctr_vectors_shipped"
   ],
   "note": "Proved for vectors whose size is a multiple of 4; the shipped ones are, and are found right in all three builds. Violated for other sizes: exact output for size 1 mod 4 (a wrong last byte), undefined exactly for sizes 2 and 3 mod 4."
  },
  {
   "property": "C98",
   "status": "partial",
   "theorems": [
    "CT.Props.Programs.aegis_main_partial",
    "CT.Props.Programs.aegis_main_refuted"
   ],
   "note": "Proved for empty plaintexts and those of at least 15 bytes. Violated for 1 to 14 bytes (C44)."
  },
  {
   "property": "C99",
   "status": "partial",
   "theorems": [
    "CT.Props.Programs.aegis_vectors_partial",
    "CT.Props.Programs.aegis_vectors_ub_iff",
    "CT.Props.Programs.aegis_vectors_shipped"
   ],
   "note": "Proved for vectors with an empty plaintext or one of at least 15 bytes; the shipped four are successful in all builds. Undefined behaviour exactly if there is a vector of another size."
  }
 ]
}