{"id": "C01", "title": "Hex round trip", "statement": "hex_encode of any byte string writes exactly two upper-case hexadecimal digits per byte followed by one terminating zero and touches nothing else, and hex_decode of those digits gives back the original bytes.", "quantifier": "every byte string, every output buffer large enough", "why_tests_cant": "the set of byte strings is infinite; a test covers a handful of literals", "anchors": ["Encoders/Hex/encoder.cpp: hex_encode", "Encoders/Hex/encoder.cpp: hex_decode"]}
{"id": "C02", "title": "Hex decoding of hexadecimal text", "statement": "hex_decode of a text of 2n hexadecimal digits (either letter case) writes the n bytes the text denotes.", "quantifier": "every text made of hexadecimal digits", "why_tests_cant": "infinitely many texts; the failing texts (lower-case letters) are not exercised by any test in the repository", "anchors": ["Encoders/Hex/encoder.cpp: hex_encode", "Encoders/Hex/encoder.cpp: hex_decode", "Encoders/Hex/encoder.cpp: hex_to_int"]}
{"id": "C03", "title": "SHA-256 (Hash copy) computes FIPS 180-4", "statement": "the digest written for a message is the FIPS 180-4 SHA-256 digest of that message.", "quantifier": "every message whose padded length fits the code's int", "why_tests_cant": "a residue class of lengths fails (length = 63 mod 64); finitely many test vectors do not cover residue classes for all lengths", "anchors": ["Hash/SHA/SHA-2/SHA-256/sha-256.cpp: sha256_process_message", "Hash/SHA/SHA-2/SHA-256/sha-256.cpp: pad_message"]}
{"id": "C04", "title": "SHA-256 (HMAC copy) computes FIPS 180-4", "statement": "the digest written for a message is the FIPS 180-4 SHA-256 digest of that message.", "quantifier": "every message whose padded length fits the code's int", "why_tests_cant": "needs agreement for every message of every length", "anchors": ["Authentication/HMAC-SHA-256/sha-256.cpp: sha256_process_message", "Authentication/HMAC-SHA-256/sha-256.cpp: pad_message"]}
{"id": "C05", "title": "SHA-256 padding stays inside its buffer", "statement": "hashing never writes outside the internal padded-message buffer, whatever the message length.", "quantifier": "every message length below the int limit, both copies of the code", "why_tests_cant": "out-of-bounds stack writes often go unnoticed by tests and only occur for particular length classes", "anchors": ["Hash/SHA/SHA-2/SHA-256/sha-256.cpp: sha256_process_message", "Authentication/HMAC-SHA-256/sha-256.cpp: sha256_process_message"]}
{"id": "C06", "title": "HMAC tags are RFC 2104 tags", "statement": "the tag generated for a non-empty message is the first t bytes of RFC 2104 HMAC-SHA-256 under the loaded key.", "quantifier": "every key of any length, every non-empty message, every tag length 1..32", "why_tests_cant": "three infinite quantifiers (key, message, length) cannot be enumerated", "anchors": ["Authentication/HMAC-SHA-256/hmac.cpp: hmac_load_key / hmac_load_key", "Authentication/HMAC-SHA-256/hmac.cpp: hmac_tag_generation"]}
{"id": "C07", "title": "HMAC of the empty message", "statement": "tag generation writes the RFC 2104 tag also for the empty message.", "quantifier": "every key and tag length", "why_tests_cant": "an output buffer that happens to hold the right bytes hides the missing write", "anchors": ["Authentication/HMAC-SHA-256/hmac.cpp: hmac_tag_generation"]}
{"id": "C08", "title": "HMAC validation decides tag equality", "statement": "validation of a non-empty message accepts exactly when the presented bytes equal the tag the generator writes for that message under the same key; in particular every generated tag is accepted and any other tag rejected.", "quantifier": "every key, message, presented tag, tag length 1..32", "why_tests_cant": "soundness quantifies over all wrong tags", "anchors": ["Authentication/HMAC-SHA-256/hmac.cpp: hmac_tag_validation"]}
{"id": "C09", "title": "HMAC validation verdict is a function of its inputs", "statement": "the verdict depends only on key, message and presented tag, for the empty message as well.", "quantifier": "every key, presented tag and every content of uninitialised stack memory", "why_tests_cant": "depends on the content of uninitialised memory, which a test cannot vary", "anchors": ["Authentication/HMAC-SHA-256/hmac.cpp: hmac_tag_validation"]}
{"id": "C10", "title": "HMAC key normalisation", "statement": "a key of at most 64 bytes and the same key extended by zero bytes up to 64 give the same tags, and a key longer than 64 bytes gives the same tags as its SHA-256 digest used as key.", "quantifier": "every key, message, tag length", "why_tests_cant": "quantifies over all keys and messages", "anchors": ["Authentication/HMAC-SHA-256/hmac.cpp: hmac_load_key"]}
{"id": "C11", "title": "MD5 of a chunked message", "statement": "feeding a message through any sequence of update calls and finishing gives the RFC 1321 digest of the concatenation.", "quantifier": "every message below 2^61 bytes and every split into chunks below 2^32-128 bytes", "why_tests_cant": "all splits of all messages", "anchors": ["Legacy/MD5/md5.cpp: MD5Update", "Legacy/MD5/md5.cpp: MD5Final", "Legacy/MD5/md5.cpp: MD5Init"]}
{"id": "C12", "title": "MD5 one-shot digest and context wiping", "statement": "the one-shot function writes the RFC 1321 digest of its input, and after finishing the context holds only zeros.", "quantifier": "every message", "why_tests_cant": "all messages", "anchors": ["Legacy/MD5/md5.cpp: MD5_process_packet", "Legacy/MD5/md5.cpp: MD5Final"]}
{"id": "C13", "title": "MD5 update is defined for every 32-bit chunk length", "statement": "an update with any chunk length representable in the parameter type reads only the chunk.", "quantifier": "every 32-bit chunk length and buffered amount", "why_tests_cant": "needs 4 GiB buffers and a particular buffered amount", "anchors": ["Legacy/MD5/md5.cpp: MD5Update"]}
{"id": "C14", "title": "ChaCha packets are RFC 7539 encryption with initial counter 1", "statement": "after initialisation with key and nonce the processed packet is the RFC 7539 ChaCha20 encryption of the input with initial counter 1 (and the 12/8 round variants with the corresponding build flags).", "quantifier": "every key, nonce and packet below 2^31 bytes", "why_tests_cant": "infinitely many keys, nonces, packets", "anchors": ["StreamCiphers/ChaCha/chacha.cpp: chacha_process_packet", "StreamCiphers/ChaCha/chacha.cpp: chacha_block", "StreamCiphers/ChaCha/chacha.cpp: chacha_initialize", "StreamCiphers/ChaCha/chacha.h: q_round, inner_block"]}
{"id": "C15", "title": "ChaCha round trip", "statement": "processing the processed packet under the same key and nonce gives back the original bytes, writes exactly the packet's bytes of the output buffer, and works in place.", "quantifier": "every key, nonce, packet below 2^31 bytes, separate or identical buffers", "why_tests_cant": "all packets", "anchors": ["StreamCiphers/ChaCha/chacha.cpp: chacha_process_packet"]}
{"id": "C16", "title": "ChaCha packets are history independent", "statement": "the output for a packet depends only on key, nonce and packet, not on packets processed earlier with the same state (so two packets under one state share their keystream).", "quantifier": "every history of packets on a state", "why_tests_cant": "all call histories", "anchors": ["StreamCiphers/ChaCha/chacha.cpp: chacha_process_packet"]}
{"id": "C17", "title": "ChaCha encrypts packets of every size", "statement": "every byte of the packet is replaced by its encryption for every 64-bit size.", "quantifier": "every size", "why_tests_cant": "needs packets of at least 2 GiB", "anchors": ["StreamCiphers/ChaCha/chacha.cpp: chacha_process_packet"]}
{"id": "C18", "title": "HC-128 first packet is the HC-128 stream", "statement": "after initialisation the first processed packet is the input xored with the HC-128 keystream of key and IV.", "quantifier": "every key, IV, packet of at most 2^33-8 bytes", "why_tests_cant": "all keys, IVs and packets", "anchors": ["StreamCiphers/HC-128/hc128.cpp: hc128_initialize", "StreamCiphers/HC-128/hc128.cpp: hc128_generate_keystream", "StreamCiphers/HC-128/hc128.cpp: hc128_process_packet"]}
{"id": "C19", "title": "HC-128 lock-step round trip", "statement": "a receiver initialised with the same key and IV that processes the sender's packets in order recovers every packet.", "quantifier": "every key, IV and every sequence of packets", "why_tests_cant": "all packet sequences", "anchors": ["StreamCiphers/HC-128/hc128.cpp: hc128_process_packet"]}
{"id": "C20", "title": "HC-128 packets continue one stream", "statement": "processing a then b on one state gives the same bytes as processing the concatenation in one call.", "quantifier": "every pair of packets", "why_tests_cant": "all packet boundaries", "anchors": ["StreamCiphers/HC-128/hc128.cpp: hc128_generate_keystream"]}
{"id": "C21", "title": "Rabbit conforms to RFC 4503", "statement": "the keystream after loading key and IV is the RFC 4503 keystream.", "quantifier": "every key and IV", "why_tests_cant": "the failing keys are a 2^-32 fraction that random tests and the standard vectors miss", "anchors": ["StreamCiphers/Rabbit/rabbit.cpp: rabbit_counter", "StreamCiphers/Rabbit/rabbit.cpp: rabbit_load_key", "StreamCiphers/Rabbit/rabbit.cpp: rabbit_load_iv", "StreamCiphers/Rabbit/rabbit.cpp: rabbit_extract_keystream"]}
{"id": "C22", "title": "Rabbit IV load resynchronises", "statement": "after loading an IV the keystream depends only on key and IV, whatever was processed before (readme: IV setup resynchronises).", "quantifier": "every history of packets and IV loads", "why_tests_cant": "all call histories", "anchors": ["StreamCiphers/Rabbit/rabbit.cpp: rabbit_load_iv", "StreamCiphers/Rabbit/readme.md"]}
{"id": "C23", "title": "Rabbit lock-step round trip", "statement": "a receiver with the same key that performs the same sequence of IV loads and packet sizes recovers every packet.", "quantifier": "every sequence of IV loads and packets", "why_tests_cant": "all call sequences", "anchors": ["StreamCiphers/Rabbit/rabbit.cpp: rabbit_process_packet"]}
{"id": "C24", "title": "Rabbit packets continue one stream at block boundaries", "statement": "processing a then b equals processing the concatenation when a is a whole number of 16-byte blocks; otherwise the rest of the last block is discarded.", "quantifier": "every state, a, b", "why_tests_cant": "all packet pairs", "anchors": ["StreamCiphers/Rabbit/rabbit.cpp: rabbit_process_packet"]}
{"id": "C25", "title": "Serpent bitsliced S-boxes", "statement": "each bitsliced S-box routine applies the Serpent S-box table of that number to the four-bit column at every one of the 32 bit positions.", "quantifier": "all 2^128 register contents, all eight S-boxes", "why_tests_cant": "2^128 inputs", "anchors": ["StreamCiphers/Sosemanuk/serpent.cpp: S0..S7", "BlockCiphers/Serpent/serpent.cpp: S0..S7"]}
{"id": "C26", "title": "Serpent24 with 256-bit keys", "statement": "key schedule and the 24 rounds, with outputs tapped after rounds 12, 18 and 24, are those of the Serpent specification for 32-byte keys.", "quantifier": "every 32-byte key and 16-byte block", "why_tests_cant": "2^384 inputs", "anchors": ["StreamCiphers/Sosemanuk/serpent.cpp: serpent_key_schedule, serpent_process_packet"]}
{"id": "C27", "title": "Serpent short keys are padded per the specification and do not collide", "statement": "keys of different length or content give different schedules; short keys are padded as the specification prescribes.", "quantifier": "every key of at most 32 bytes", "why_tests_cant": "collisions need specific key pairs", "anchors": ["StreamCiphers/Sosemanuk/serpent.cpp: serpent_key_schedule"]}
{"id": "C28", "title": "Sosemanuk conforms to its specification", "statement": "the keystream after key and IV load is the Sosemanuk keystream.", "quantifier": "every key and IV", "why_tests_cant": "the repository has no passing vectors; conformance quantifies over all keys and IVs", "anchors": ["StreamCiphers/Sosemanuk/sosemanuk.cpp: fsm_update, lfsr_update, sosemanuk_process_packet"]}
{"id": "C29", "title": "Sosemanuk lock-step round trip", "statement": "a receiver with same key and IV that processes the sender's packets in order recovers every packet.", "quantifier": "every key, IV and packet sequence", "why_tests_cant": "all packet sequences", "anchors": ["StreamCiphers/Sosemanuk/sosemanuk.cpp: sosemanuk_process_packet"]}
{"id": "C30", "title": "Sosemanuk packets continue one stream at block boundaries", "statement": "processing a then b equals processing the concatenation when a is a whole number of 16-byte blocks.", "quantifier": "every state, a, b", "why_tests_cant": "all packet pairs", "anchors": ["StreamCiphers/Sosemanuk/sosemanuk.cpp: sosemanuk_process_packet"]}
{"id": "C31", "title": "AES block function is FIPS 197 AES-128", "statement": "the table-driven key expansion and block encryption compute FIPS 197 AES-128.", "quantifier": "every 16-byte key and block", "why_tests_cant": "2^256 inputs", "anchors": ["BlockCiphers/AES/AES/AES_CTR/aes_ctr.cpp: aes_encrypt, key_expansion", "BlockCiphers/AES/AES/AES_CTR/tables.h"]}
{"id": "C32", "title": "AES portable, x86 and ARM variants agree", "statement": "the three variants of key expansion and block encryption give the same result for every key and block (given the documented semantics of the AES instructions).", "quantifier": "every key and block", "why_tests_cant": "needs three machines and 2^256 inputs", "anchors": ["BlockCiphers/AES/AES_x86/AES_CTR/aes_ctr.cpp", "BlockCiphers/AES/AES_ARM/AES_CTR/aes_ctr.cpp"]}
{"id": "C33", "title": "AES-CTR packets are SP 800-38A counter mode", "statement": "a packet is the input xored with the AES encryptions of nonce followed by the 32-bit big-endian counter starting at 1.", "quantifier": "every key, nonce and packet of any size", "why_tests_cant": "sizes in some residue classes mod 4 fail; tests only use multiples of 4", "anchors": ["BlockCiphers/AES/AES/AES_CTR/aes_ctr.cpp: aes_ctr_process_packet, aes_load_iv"]}
{"id": "C34", "title": "AES-CTR lock-step round trip", "statement": "a receiver with the same key and nonce processing the sender's packets in order recovers every packet.", "quantifier": "every key, nonce and packet sequence", "why_tests_cant": "all packet sequences", "anchors": ["BlockCiphers/AES/AES/AES_CTR/aes_ctr.cpp: aes_ctr_process_packet"]}
{"id": "C35", "title": "AES-CTR never repeats a counter block", "statement": "within 2^32 blocks under one nonce load, across any sequence of packets, all counter blocks fed to the block cipher are distinct, and packets that are whole blocks continue the stream.", "quantifier": "every sequence of packets totalling at most 2^32 blocks", "why_tests_cant": "needs 2^32 blocks and all splits", "anchors": ["BlockCiphers/AES/AES/AES_CTR/aes_ctr.cpp: state_update"]}
{"id": "C36", "title": "AES-CFB lock-step round trip", "statement": "a receiver with same key and IV decrypting the sender's packets in order recovers every packet, with the shift register carried over between packets.", "quantifier": "every key, IV and sequence of packets", "why_tests_cant": "all packet sequences and sizes", "anchors": ["BlockCiphers/AES/AES/AES_CFB/aes_cfb.cpp: aes_cfb_process_packet"]}
{"id": "C37", "title": "AES-CFB is SP 800-38A CFB-128 on whole blocks", "statement": "encrypting packets of whole 16-byte blocks computes CFB-128 over their concatenation.", "quantifier": "every key, IV and sequence of whole-block packets", "why_tests_cant": "all packet sequences", "anchors": ["BlockCiphers/AES/AES/AES_CFB/aes_cfb.cpp: aes_cfb_process_packet"]}
{"id": "C38", "title": "AES-CFB variants interoperate", "statement": "a packet sequence encrypted by one variant (portable, x86, ARM) is decrypted by any other.", "quantifier": "every key, IV and packet sequence, every pair of variants", "why_tests_cant": "needs several machines and packet sequences with partial blocks", "anchors": ["BlockCiphers/AES/AES/AES_CFB/aes_cfb.cpp", "BlockCiphers/AES/AES_x86/AES_CFB_Carry-Over/aes_cfb.cpp", "BlockCiphers/AES/AES_ARM/AES_CFB_Carry-Over/aes_cfb.cpp"]}
{"id": "C39", "title": "AES-CFB self-synchronises", "statement": "a receiver in an arbitrary state that receives a packet of at least one whole block decrypts everything after the first block of that packet and every later packet correctly.", "quantifier": "every receiver state and packet sequence", "why_tests_cant": "all states of the receiver", "anchors": ["BlockCiphers/AES/AES/AES_CFB/aes_cfb.cpp: full_state_update, partial_state_update", "Example_AuthenticatedEncryption/example_ae.cpp"]}
{"id": "C40", "title": "AES-CFB in place", "statement": "processing with identical input and output buffers gives the same result as with separate buffers.", "quantifier": "every state, packet, both modes", "why_tests_cant": "all packets", "anchors": ["BlockCiphers/AES/AES/AES_CFB/aes_cfb.cpp: aes_cfb_process_packet"]}
{"id": "C41", "title": "AEGIS round trip", "statement": "decrypting what encrypt produced with the same key, IV and associated data accepts and gives back the plaintext.", "quantifier": "every key, IV, associated data, plaintext", "why_tests_cant": "all plaintexts and associated data", "anchors": ["StreamCiphers/AEGIS/AEGIS/aegis_128.cpp: aegis_encrypt_packet, aegis_decrypt_packet"]}
{"id": "C42", "title": "AEGIS rejects and wipes", "statement": "decryption accepts exactly the (ciphertext, tag) pairs encryption produces for the returned plaintext; on rejection the whole plaintext buffer and the tag buffer are zero.", "quantifier": "every key, IV, associated data, ciphertext, tag", "why_tests_cant": "soundness quantifies over all forgeries", "anchors": ["StreamCiphers/AEGIS/AEGIS/aegis_128.cpp: aegis_decrypt_packet"]}
{"id": "C43", "title": "AEGIS computes AEGIS-128", "statement": "ciphertext and tag are those of the AEGIS-128 specification.", "quantifier": "every key, IV, associated data, plaintext", "why_tests_cant": "all inputs", "anchors": ["StreamCiphers/AEGIS/AEGIS/aegis_128.cpp: aegis_initialize, aegis_process_ad, aegis_encrypt, aegis_finalize"]}
{"id": "C44", "title": "AEGIS is defined for every message length", "statement": "encryption reads and writes only the given buffers for every message length.", "quantifier": "every message length", "why_tests_cant": "out-of-bounds access for lengths 1..14, which no test uses", "anchors": ["StreamCiphers/AEGIS/AEGIS/aegis_128.cpp: aegis_encrypt, aegis_decrypt"]}
{"id": "C45", "title": "AEGIS in place", "statement": "encrypting or decrypting with identical plaintext and ciphertext buffers gives the same result as separate buffers.", "quantifier": "every input", "why_tests_cant": "all inputs", "anchors": ["StreamCiphers/AEGIS/AEGIS/aegis_128.cpp: aegis_encrypt, aegis_decrypt"]}
{"id": "C46", "title": "AEGIS packets are history independent", "statement": "the result of a packet operation depends only on key, IV and the packet, not on earlier operations (including failed decryptions) on the same state.", "quantifier": "every history of operations", "why_tests_cant": "all histories", "anchors": ["StreamCiphers/AEGIS/AEGIS/aegis_128.cpp: aegis_initialize"]}
{"id": "C47", "title": "AEGIS portable, x86 and ARM variants agree", "statement": "all three variants give the same ciphertext and tag.", "quantifier": "every input", "why_tests_cant": "needs three machines and all inputs", "anchors": ["StreamCiphers/AEGIS/AEGIS_x86/aegis_128.cpp", "StreamCiphers/AEGIS/AEGIS_ARM/aegis_128.cpp"]}
{"id": "C48", "title": "DES ECB decryption inverts encryption", "statement": "processing a packet with the encryption key schedule and the result with the decryption key schedule of the same key gives back the packet.", "quantifier": "every key and packet of whole blocks", "why_tests_cant": "all keys and blocks", "anchors": ["Legacy/DES/des.cpp: des_ecb_block, des_key_schedule_decrypt"]}
{"id": "C49", "title": "DES is FIPS 46-3 DES", "statement": "block encryption is FIPS 46-3 DES under the given key, so it depends on all sixteen round keys.", "quantifier": "every key and block", "why_tests_cant": "all keys and blocks", "anchors": ["Legacy/DES/des.cpp: des_ecb_block, des_key_schedule_encrypt"]}
{"id": "C50", "title": "DES CTR round trip", "statement": "processing twice under the same key, nonce and counter gives the original packet.", "quantifier": "every key, nonce and packet of whole blocks", "why_tests_cant": "all packets", "anchors": ["Legacy/DES/des.cpp: des_process_packet_ctr"]}
{"id": "C51", "title": "DES CTR keystream blocks come from distinct counters", "statement": "the keystream depends on the whole nonce and on the block counter: distinct blocks are encrypted with distinct cipher inputs.", "quantifier": "every key, nonce and packet", "why_tests_cant": "all packets", "anchors": ["Legacy/DES/des.cpp: des_process_packet_ctr"]}
{"id": "C52", "title": "DES packet functions stay inside the packet", "statement": "ECB and CTR packet processing reads and writes only the given bytes for every size.", "quantifier": "every size", "why_tests_cant": "sizes that are not multiples of 8 loop through memory", "anchors": ["Legacy/DES/des.cpp: des_process_packet_ecb, des_process_packet_ctr"]}
{"id": "C53", "title": "Joye-Libert decryption inverts encryption", "statement": "decrypting an encryption of m in [0, 2^k) gives m for a key pair satisfying the key generator's conditions.", "quantifier": "every key, message and random choice made by encryption", "why_tests_cant": "all keys, messages and coin tosses; the failing coin tosses (multiples of p) are rare", "anchors": ["AsymmetricCryptography/Joye_libert/joye_libert.cpp: joye_libert_encrypt, joye_libert_decrypt"]}
{"id": "C54", "title": "Joye-Libert is additively homomorphic", "statement": "the product of ciphertexts decrypts to the sum mod 2^k, a power to the multiple, and a modular inverse to the negation.", "quantifier": "every key and all ciphertexts of all messages", "why_tests_cant": "all ciphertexts", "anchors": ["AsymmetricCryptography/Joye_libert/joye_libert.cpp: joye_libert_decrypt", "AsymmetricCryptography/Labeled_homomorphic_encryption/LabeledHE/labeled_he.cpp: he_eval_add"]}
{"id": "C55", "title": "Joye-Libert key generation postconditions", "statement": "a generated key has N = p*q with p = 1 mod 2^k, (p-1)/2^k prime, q = 3 mod 4, p different from q if k is at least 2, and y in [0, N) a non-residue modulo both primes.", "quantifier": "every stream of random numbers", "why_tests_cant": "all random streams", "anchors": ["AsymmetricCryptography/Joye_libert/joye_libert.cpp: joye_libert_keygen"]}
{"id": "C56", "title": "Labeled HE fresh ciphertexts decrypt", "statement": "a fresh labeled encryption decrypts to the message, whatever label, label-derivation keystream and coins.", "quantifier": "every key, message, label, keystream, coins", "why_tests_cant": "all inputs", "anchors": ["AsymmetricCryptography/Labeled_homomorphic_encryption/LabeledHE/labeled_he.cpp: he_encrypt, he_decrypt"]}
{"id": "C57", "title": "Labeled HE evaluation of linear maps", "statement": "sums, differences and constant multiples of ciphertexts decrypt to the corresponding value mod 2^k.", "quantifier": "every linear combination of fresh ciphertexts", "why_tests_cant": "all programs", "anchors": ["AsymmetricCryptography/Labeled_homomorphic_encryption/LabeledHE/labeled_he.cpp: he_eval_add, he_eval_sub, he_eval_cmult"]}
{"id": "C58", "title": "Labeled HE evaluation of products", "statement": "the product of two (three) fresh ciphertexts decrypts, given the product of the label values, to the product of the messages mod 2^k, and products can be added and scaled.", "quantifier": "every key, messages, labels, coins", "why_tests_cant": "all programs", "anchors": ["AsymmetricCryptography/Labeled_homomorphic_encryption/LabeledHE/labeled_he.cpp: he_eval_mult, he_eval_mult_3"]}
{"id": "C59", "title": "Labeled HE label values are a function of key and label", "statement": "encrypting under the same key and label always uses the same label value, so a decryptor that knows key and label can recompute it.", "quantifier": "every key, label and history", "why_tests_cant": "depends on uninitialised memory and on call history", "anchors": ["AsymmetricCryptography/Labeled_homomorphic_encryption/LabeledHE/labeled_he.cpp: he_encrypt"]}
{"id": "C60", "title": "Multi-user labeled HE key transport", "statement": "the user secret key encrypted in the user public key can be recovered by the master key holder.", "quantifier": "every user secret key, message size", "why_tests_cant": "all keys", "anchors": ["AsymmetricCryptography/Labeled_homomorphic_encryption/muLabeledHE/mu_labeled_he.cpp: mu_he_keygen"]}
{"id": "C61", "title": "Multi-user labeled HE correctness", "statement": "encryption, linear evaluation and products decrypt to the corresponding value mod 2^k.", "quantifier": "every key, messages, coins", "why_tests_cant": "all inputs", "anchors": ["AsymmetricCryptography/Labeled_homomorphic_encryption/muLabeledHE/mu_labeled_he.cpp"]}
{"id": "C62", "title": "Encrypt-then-MAC example releases plaintext only on a valid tag", "statement": "the receiver in the example decrypts a received message only if its tag validates.", "quantifier": "every received message", "why_tests_cant": "all forgeries", "anchors": ["Example_AuthenticatedEncryption/example_ae.cpp: main"]}
{"id": "C63", "title": "Poly1305 clamping", "statement": "clamping clears exactly the bits RFC 7539 prescribes.", "quantifier": "every 16-byte r", "why_tests_cant": "2^128 inputs", "anchors": ["Authentication/Poly1305/poly1305.h: clamp"]}
{"id": "C64", "title": "Rabbit runs without undefined behaviour", "statement": "key setup, IV setup and packet processing of the Rabbit cipher never execute an operation with undefined behaviour: in particular no signed integer overflow in the g function.", "quantifier": "every key, IV and packet", "why_tests_cant": "undefined behaviour can go unnoticed under a given compiler", "anchors": ["StreamCiphers/Rabbit/rabbit.cpp: rabbit_load_key, rabbit_process_packet"]}
{"id": "C65", "title": "Encrypt-then-MAC example round trip", "statement": "the message made by the sender of each section of the example is accepted by its receiver, which prints the plaintext.", "quantifier": "every plaintext (the one in the file included), keys and IV, content of uninitialised memory", "why_tests_cant": "undefined behaviour can go unnoticed under a given compiler; all plaintexts", "anchors": ["Example_AuthenticatedEncryption/example_ae.cpp: main"]}
{"id": "C66", "title": "Serpent packet function reads and writes size bytes", "statement": "serpent_process_packet accepts every size its interface admits, and for a packet of size bytes writes size bytes.", "quantifier": "every size, key and input", "why_tests_cant": "undefined behaviour can go unnoticed; all sizes", "anchors": ["StreamCiphers/Sosemanuk/serpent.cpp: serpent_process_packet", "BlockCiphers/Serpent/serpent.cpp: serpent_process_packet"]}
{"id": "C67", "title": "Serpent24 outputs determine the block", "statement": "under every key, each of the three 16-byte outputs of serpent_process_packet determines the input block.", "quantifier": "every key schedule and pair of blocks", "why_tests_cant": "2^256 pairs per key", "anchors": ["StreamCiphers/Sosemanuk/serpent.cpp: rounds, serpent_process_packet"]}
{"id": "C68", "title": "Sosemanuk IVs do not collide", "statement": "under one key two different IVs never lead to the same cipher state.", "quantifier": "every key, every pair of IVs", "why_tests_cant": "2^256 pairs per key", "anchors": ["StreamCiphers/Sosemanuk/sosemanuk.cpp: sosemanuk_load_iv"]}
{"id": "C69", "title": "Sosemanuk state does not collapse", "statement": "two different cipher states stay different while keystream is generated, as for the cipher of the specification.", "quantifier": "every pair of states", "why_tests_cant": "2^384 states", "anchors": ["StreamCiphers/Sosemanuk/sosemanuk.h: sosemanuk_fsm_update"]}
{"id": "C70", "title": "Sosemanuk IV load resynchronises", "statement": "after loading an IV the cipher's behaviour depends on key and IV only, whatever was processed before.", "quantifier": "every history of loads and packets", "why_tests_cant": "all histories", "anchors": ["StreamCiphers/Sosemanuk/sosemanuk.cpp: sosemanuk_load_iv"]}
{"id": "C71", "title": "Joye-Libert modulus has the requested size", "statement": "joye_libert_keygen with key size s makes a modulus of s bits.", "quantifier": "every stream of random numbers, key size and message size", "why_tests_cant": "the draws that give short primes are rare", "anchors": ["AsymmetricCryptography/Joye_libert/joye_libert.cpp: joye_libert_keygen"]}
{"id": "C72", "title": "Joye-Libert decryption in place", "statement": "joye_libert_decrypt may be called with the same variable for message and ciphertext, as GMP's own functions may.", "quantifier": "every key and ciphertext", "why_tests_cant": "depends on how the caller shares variables; all ciphertexts", "anchors": ["AsymmetricCryptography/Joye_libert/joye_libert.cpp: joye_libert_decrypt"]}
{"id": "C73", "title": "Labeled HE decryption may share variables", "statement": "decrypting a multiplication ciphertext gives the same result when the result variable is also the ciphertext or the label value.", "quantifier": "every key, ciphertext and label value", "why_tests_cant": "depends on how the caller shares variables", "anchors": ["AsymmetricCryptography/Labeled_homomorphic_encryption/LabeledHE/labeled_he.cpp: he_decrypt"]}
{"id": "C74", "title": "Labeled HE encryption stays inside its label buffer", "statement": "encrypting under any label writes only inside the buffer for the label.", "quantifier": "every label and message size", "why_tests_cant": "undefined behaviour can go unnoticed; all labels", "anchors": ["AsymmetricCryptography/Labeled_homomorphic_encryption/LabeledHE/labeled_he.cpp: he_encrypt"]}
{"id": "C75", "title": "Serpent with 32 rounds", "statement": "with the SOSEMANUK_H define removed, serpent_key_schedule and serpent_process_packet compute Serpent with a 256-bit key.", "quantifier": "every 32-byte key and block", "why_tests_cant": "2^384 inputs", "anchors": ["BlockCiphers/Serpent/serpent.cpp: rounds (the #else branch), serpent_key_schedule, serpent_process_packet"]}
{"id": "C76", "title": "Serpent with 32 rounds is a permutation", "statement": "with the SOSEMANUK_H define removed, serpent_process_packet maps a 16-byte block to 16 bytes, and different blocks to different ones.", "quantifier": "every key schedule and pair of blocks", "why_tests_cant": "2^256 pairs per key", "anchors": ["BlockCiphers/Serpent/serpent.cpp: rounds (the #else branch), serpent_process_packet"]}
{"id": "C77", "title": "HC-128 states never merge", "statement": "two different cipher states stay different while packets of equal sizes are processed.", "quantifier": "every pair of states, every pair of packet sequences with equal sizes", "why_tests_cant": "2^32768 states", "anchors": ["StreamCiphers/HC-128/hc128.cpp: hc128_generate_keystream, hc128_process_packet"]}
{"id": "C78", "title": "HC-128 sessions differ", "statement": "initialisation with different keys or IVs gives different states, which stay different while packets of equal sizes are processed.", "quantifier": "every pair of (key, IV), every pair of packet sequences with equal sizes", "why_tests_cant": "2^512 pairs", "anchors": ["StreamCiphers/HC-128/hc128.cpp: hc128_initialize, hc128_process_packet"]}
{"id": "C79", "title": "AES block functions are permutations", "statement": "under every key schedule each build of the block function (portable, round-reduced, x86, ARM) maps different blocks to different blocks, and every block is the image of one.", "quantifier": "every key schedule and pair of blocks", "why_tests_cant": "2^256 pairs per key", "anchors": ["BlockCiphers/AES/AES/AES_CTR/aes_ctr.cpp: aes_encrypt", "BlockCiphers/AES/AES_x86/AES_CTR/aes_ctr.cpp", "BlockCiphers/AES/AES_ARM/AES_CTR/aes_ctr.cpp"]}
{"id": "C80", "title": "AES-CTR keystream blocks are distinct", "statement": "within 2^32 blocks after loading key and nonce no two keystream blocks, of one packet or of different ones, are equal.", "quantifier": "every key, nonce and sequence of packets of whole blocks", "why_tests_cant": "2^63 pairs of blocks per nonce", "anchors": ["BlockCiphers/AES/AES/AES_CTR/aes_ctr.cpp: aes_ctr_process_packet"]}
{"id": "C81", "title": "Stream ciphers: truncation", "statement": "the first m bytes of a packet encrypted alone give the first m bytes of the packet's ciphertext.", "quantifier": "every state, packet and m; ChaCha, HC-128, Rabbit, Sosemanuk, AES-CTR", "why_tests_cant": "all sizes, and the code treats the last block separately", "anchors": ["StreamCiphers/ChaCha/chacha.cpp: chacha_process_packet", "StreamCiphers/HC-128/hc128.cpp: hc128_process_packet", "StreamCiphers/Rabbit/rabbit.cpp: rabbit_process_packet", "StreamCiphers/Sosemanuk/sosemanuk.cpp: sosemanuk_process_packet", "BlockCiphers/AES/AES/AES_CTR/aes_ctr.cpp: aes_ctr_process_packet"]}
{"id": "C82", "title": "Stream ciphers: transmission errors", "statement": "if ciphertexts are changed on the way, but not their sizes, the receiver gets the plaintexts with the same bits changed, and stays in step with the sender.", "quantifier": "every state, packet sequence and change; ChaCha, HC-128, Rabbit, Sosemanuk, AES-CTR", "why_tests_cant": "all error patterns and histories", "anchors": ["StreamCiphers/ChaCha/chacha.cpp: chacha_process_packet", "StreamCiphers/HC-128/hc128.cpp: hc128_process_packet", "StreamCiphers/Rabbit/rabbit.cpp: rabbit_process_packet", "StreamCiphers/Sosemanuk/sosemanuk.cpp: sosemanuk_process_packet", "BlockCiphers/AES/AES/AES_CTR/aes_ctr.cpp: aes_ctr_process_packet"]}
{"id": "C83", "title": "Hex decoding stays inside its buffers", "statement": "hex_decode of any characters, digits or not, reads only the first size characters and writes only the first size/2 bytes: it is free of undefined behaviour exactly when the buffers have these sizes, and the bytes after size/2 keep their values.", "quantifier": "every text, output buffer and size", "why_tests_cant": "arbitrary characters and sizes", "anchors": ["Encoders/Hex/encoder.cpp: hex_decode"]}
{"id": "C84", "title": "Byte order helper", "statement": "byte_swap(output, input, size) stores the input in output with the bytes of each four-byte word reversed, and leaves the input unchanged.", "quantifier": "every input, output, size, and sharing of the two buffers", "why_tests_cant": "arbitrary sizes; the library calls it only in place, where the fault does not show", "anchors": ["StreamCiphers/ChaCha/chacha.cpp: byte_swap", "StreamCiphers/Rabbit/rabbit.cpp: byte_swap (DEBUG)"]}
{"id": "C85", "title": "ChaCha programs", "statement": "the example program prints its message, the RFC 7539 ciphertext in hexadecimal and the recovered message, which is the first; cipher_test prints the ciphertext in two parts.", "quantifier": "every message below 2^30 bytes, key and nonce that the source may declare (in upper-case hexadecimal), and all contents of uninitialised arrays", "why_tests_cant": "the program runs with one message and key", "anchors": ["StreamCiphers/ChaCha/main.cpp: main", "StreamCiphers/ChaCha/cipher_test.cpp: main"]}
{"id": "C86", "title": "ChaCha test programs", "statement": "block_test prints the keystream block for counter 1 of the state it is given as text, and quarter_test the quarter round on words 2, 7, 8 and 13, both as words with the most significant digit first.", "quantifier": "every RFC 7539 initial state (block_test), every state (quarter_test)", "why_tests_cant": "the programs run with one state", "anchors": ["StreamCiphers/ChaCha/block_test.cpp: main", "StreamCiphers/ChaCha/quarter_test.cpp: main (lines 35-58)"]}
{"id": "C87", "title": "HC-128 and Sosemanuk programs", "statement": "the example programs print the plaintext, and the same text again after encrypting and decrypting it; the Sosemanuk program ends with an error exactly when the key has more than 32 bytes.", "quantifier": "every plaintext below 2^30 bytes, key and IV that the source may declare (in upper-case hexadecimal), and all contents of uninitialised arrays and cipher states", "why_tests_cant": "each program runs with one plaintext and key", "anchors": ["StreamCiphers/HC-128/main.cpp: main", "StreamCiphers/Sosemanuk/main.cpp: main"]}
{"id": "C88", "title": "Rabbit program", "statement": "the example program recovers both messages: the first, and the second, which the sender encrypts after a message in between that the receiver does not process, and a new load of the IV on both sides.", "quantifier": "every three messages, key and IV the source may declare", "why_tests_cant": "with the shipped texts the program recovers both messages", "anchors": ["StreamCiphers/Rabbit/main.cpp: main"]}
{"id": "C89", "title": "Rabbit debug output", "statement": "print_key prints the sixteen key bytes in order, and print_inner_state the carry, the state words and the counters, each as a hexadecimal number.", "quantifier": "every key and state", "why_tests_cant": "2^513 states", "anchors": ["StreamCiphers/Rabbit/rabbit.cpp: print_key, print_inner_state (DEBUG)"]}
{"id": "C90", "title": "SHA-256 program", "statement": "the example program prints the FIPS 180-4 digest of its message in hexadecimal.", "quantifier": "every message below 2^31 - 128 bytes, and all contents of uninitialised memory", "why_tests_cant": "the byte written behind an array need not show in a run", "anchors": ["Hash/SHA/SHA-2/SHA-256/main.cpp: main"]}
{"id": "C91", "title": "HMAC program", "statement": "the example program prints the first 16 bytes of the RFC 2104 tag in hexadecimal, confirms its own tag, and reports success exactly if the expected tag is that tag.", "quantifier": "every key, non-empty message and expected tag that the source may declare (in upper-case hexadecimal), and all contents of uninitialised memory", "why_tests_cant": "the program runs with one key and message", "anchors": ["Authentication/HMAC-SHA-256/main.cpp: main"]}
{"id": "C92", "title": "MD5 program", "statement": "the example program prints the RFC 1321 digest of its text in hexadecimal.", "quantifier": "every text below 2^32 bytes, and all contents of the uninitialised context and array", "why_tests_cant": "the program runs with one text", "anchors": ["Legacy/MD5/main.cpp: main"]}
{"id": "C93", "title": "Serpent program", "statement": "the example program prints the three blocks that Sosemanuk takes from Serpent: the states after 12, 18 and 24 rounds.", "quantifier": "every key of 32 bytes and block that the source may declare", "why_tests_cant": "the program runs with one key and block", "anchors": ["BlockCiphers/Serpent/main.cpp: main"]}
{"id": "C94", "title": "AES-CFB programs", "statement": "the example programs print the plaintext, its encryption, and the plaintext again after decrypting.", "quantifier": "every key, IV and plaintext below 2^31 bytes, the three builds, and all contents of uninitialised arrays", "why_tests_cant": "each program runs with one plaintext, and a bad shift need not show in a run", "anchors": ["BlockCiphers/AES/AES/AES_CFB/main.cpp: main", "BlockCiphers/AES/AES_x86/AES_CFB_Carry-Over/main.cpp: main", "BlockCiphers/AES/AES_ARM/AES_CFB_Carry-Over/main.cpp: main"]}
{"id": "C95", "title": "DES program", "statement": "the example program prints the FIPS 46-3 encryption of its two blocks in hexadecimal.", "quantifier": "every key and pair of blocks that the source may declare", "why_tests_cant": "the program runs with one key and message and prints no expected result", "anchors": ["Legacy/DES/main.cpp: main"]}
{"id": "C96", "title": "DES counter mode program", "statement": "the program prints a counter mode encryption of its message: equal blocks of the message are encrypted differently.", "quantifier": "every key and block repeated four times", "why_tests_cant": "the program runs with one message and prints no expected result", "anchors": ["Legacy/DES/main_ctr.cpp: main"]}
{"id": "C97", "title": "AES-CTR test program", "statement": "the program prints the SP 800-38A encryption of each of its vectors, and counts a vector as wrong exactly if the expected result differs.", "quantifier": "every list of vectors, the three builds, all contents of uninitialised arrays and of the cipher state", "why_tests_cant": "it decides three vectors", "anchors": ["BlockCiphers/AES/AES/AES_CTR/test_vectors.cpp: main", "BlockCiphers/AES/AES_x86/AES_CTR/test_vectors.cpp: main", "BlockCiphers/AES/AES_ARM/AES_CTR/test_vectors.cpp: main"]}
{"id": "C98", "title": "AEGIS programs", "statement": "the example programs print the AEGIS-128 ciphertext in hexadecimal, the plaintext, and the same plaintext recovered.", "quantifier": "every key, IV and plaintext below 2^30 bytes, the three builds, and all contents of uninitialised memory", "why_tests_cant": "each program runs with one plaintext", "anchors": ["StreamCiphers/AEGIS/AEGIS/main.cpp: main", "StreamCiphers/AEGIS/AEGIS_x86/main.cpp: main", "StreamCiphers/AEGIS/AEGIS_ARM/main.cpp: main"]}
{"id": "C99", "title": "AEGIS test programs", "statement": "the programs print the AEGIS-128 results of each vector, and count a vector as successful exactly if ciphertext and tag are the expected ones.", "quantifier": "every list of vectors, the three builds, all contents of uninitialised memory", "why_tests_cant": "they decide four vectors", "anchors": ["StreamCiphers/AEGIS/AEGIS/test_vectors.cpp: main", "StreamCiphers/AEGIS/AEGIS_x86/test_vectors.cpp: main", "StreamCiphers/AEGIS/AEGIS_ARM/test_vectors.cpp: main"]}
{"id": "C100", "title": "Joye-Libert keys of different users differ", "statement": "two key generations do not give the same secret key, and the moduli of two keys have no common factor.", "quantifier": "every pair of key generations (message sizes, modulus sizes, behaviours of the random number generator after gmp_randinit_mt)", "why_tests_cant": "a test sees one key at a time; the generator is library code", "anchors": ["AsymmetricCryptography/Joye_libert/joye_libert.cpp: joye_libert_keygen"]}
{"id": "C101", "title": "Joye-Libert program", "statement": "the example program prints two messages and the decryption of the product of their ciphertexts, which is their sum modulo 2^k.", "quantifier": "every pair of messages, message and modulus size, and behaviour of the random number generator", "why_tests_cant": "the program makes one run with one key", "anchors": ["AsymmetricCryptography/Joye_libert/main.cpp: main"]}
{"id": "C102", "title": "Labeled homomorphic encryption program", "statement": "the example program recovers two messages, their sum, a difference, the products of two and three messages, and the sum and difference of these products, modulo 2^k.", "quantifier": "every three messages and labels, sizes, keystream key and IV, uninitialised memory and behaviour of the random number generator", "why_tests_cant": "the program makes one run with one key", "anchors": ["AsymmetricCryptography/Labeled_homomorphic_encryption/LabeledHE/main.cpp: main"]}
{"id": "C103", "title": "Joye-Libert decryption of arbitrary numbers", "statement": "decryption is defined for every number, gives a k-bit message and depends on the number modulo p only; sums, differences and multiples computed on numbers coprime to N decrypt to the corresponding value of their decryptions mod 2^k, whether or not they are ciphertexts.", "quantifier": "every key, every number, every linear expression", "why_tests_cant": "all numbers, among them ones no encryption makes", "anchors": ["AsymmetricCryptography/Joye_libert/joye_libert.cpp: joye_libert_decrypt"]}
{"id": "C104", "title": "AES-CFB error propagation", "statement": "if one block of a ciphertext is damaged, decryption gives the same plaintext before it, the plaintext block with exactly the damaged bits flipped, a different next block, and the same plaintext from the block after that on.", "quantifier": "every key, IV, message of whole blocks, division into packets, damaged block and damage, the three builds", "why_tests_cant": "2^128 damages per block", "anchors": ["BlockCiphers/AES/AES/AES_CFB/aes_cfb.cpp: aes_cfb_process_packet", "BlockCiphers/AES/AES_x86/AES_CFB_Carry-Over/aes_cfb.cpp: aes_cfb_process_packet", "BlockCiphers/AES/AES_ARM/AES_CFB_Carry-Over/aes_cfb.cpp: aes_cfb_process_packet"]}
{"id": "C105", "title": "Labeled HE linear operations in place", "statement": "a program of additions, subtractions and constant multiples on ciphertext variables, in which results may be written over operands, leaves in every variable a ciphertext of the message which the same assignments give on messages; decryption may write its result to any variable.", "quantifier": "every program, assignment of variables, initial ciphertexts", "why_tests_cant": "depends on how the caller shares variables; all programs", "anchors": ["AsymmetricCryptography/Labeled_homomorphic_encryption/LabeledHE/labeled_he.cpp: he_eval_add, he_eval_sub, he_eval_cmult, he_decrypt", "AsymmetricCryptography/Labeled_homomorphic_encryption/muLabeledHE/mu_labeled_he.cpp: mu_he_eval_add, mu_he_eval_sub, mu_he_eval_cmult, mu_he_decrypt"]}
{"id": "C106", "title": "Labeled HE products in place", "statement": "the result of a product, or of a constant multiple, may be written to any variable but the modulus, as GMP's own functions allow.", "quantifier": "every key, ciphertexts, choice of variables", "why_tests_cant": "depends on how the caller shares variables", "anchors": ["AsymmetricCryptography/Labeled_homomorphic_encryption/LabeledHE/labeled_he.cpp: he_eval_mult, he_eval_mult_3, he_eval_cmult", "AsymmetricCryptography/Labeled_homomorphic_encryption/muLabeledHE/mu_labeled_he.cpp: mu_he_eval_mult, mu_he_eval_mult_3"]}
{"id": "C107", "title": "Labeled HE encryption with shared variables", "statement": "the ciphertext decrypts to the message passed, also if message, label, label value and members of the ciphertext share variables.", "quantifier": "every key, message, label, choice of variables", "why_tests_cant": "depends on how the caller shares variables", "anchors": ["AsymmetricCryptography/Labeled_homomorphic_encryption/LabeledHE/labeled_he.cpp: he_encrypt", "AsymmetricCryptography/Labeled_homomorphic_encryption/muLabeledHE/mu_labeled_he.cpp: mu_he_encrypt"]}
{"id": "C108", "title": "AES: table reads independent of the key", "statement": "which entries of its tables the cipher reads, while a key is loaded and while blocks are encrypted, does not depend on the key; an observer of the cache learns nothing about it.", "quantifier": "every pair of keys, message and cipher state", "why_tests_cant": "a test sees outputs; the reads are not an output and there are 2^128 keys", "anchors": ["BlockCiphers/AES/AES/AES_CTR/aes_ctr.cpp: aes_load_key, aes_encrypt, aes_ctr_process_packet"]}
{"id": "C109", "title": "HMAC validation time independent of the wrong tag", "statement": "the number of byte comparisons that hmac_tag_validation makes for a wrong tag does not depend on how much of the tag is right.", "quantifier": "every key, message, tag size and pair of wrong tags", "why_tests_cant": "a test sees the return value, and there are 2^(8n) tags", "anchors": ["Authentication/HMAC-SHA-256/hmac.cpp: hmac_tag_validation"]}
{"id": "C110", "title": "AEGIS tag comparison does not stop early", "statement": "aegis_decrypt_packet compares the four words of the tag whatever they are.", "quantifier": "every key state, packet, IV, associated data, tag, and round function (all builds)", "why_tests_cant": "a test sees the return value, and there are 2^128 tags", "anchors": ["StreamCiphers/AEGIS/AEGIS/aegis_128.cpp: aegis_decrypt_packet"]}
{"id": "C111", "title": "Joye-Libert decryption: operations independent of the message", "statement": "the sequence of operations that decryption makes is the same for all ciphertexts under a key.", "quantifier": "every key and pair of ciphertexts", "why_tests_cant": "a test sees the decrypted message, not the operations made", "anchors": ["AsymmetricCryptography/Joye_libert/joye_libert.cpp: joye_libert_decrypt"]}
{"id": "C112", "title": "Secret-prefix authentication with a hash", "statement": "the digest of a secret followed by a message authenticates the message: who knows the digest, the message and the length of the secret cannot give the digest of the secret followed by another message.", "quantifier": "every forger; every secret and message", "why_tests_cant": "a statement on all forging programs", "anchors": ["Hash/SHA/SHA-2/SHA-256/sha-256.cpp: sha256_process_message", "Authentication/HMAC-SHA-256/sha-256.cpp: sha256_process_message", "Legacy/MD5/md5.cpp: MD5_process_packet"]}
{"id": "C113", "title": "AES-CTR sessions with different nonces", "statement": "under one key, sessions with different nonces never use the same keystream block.", "quantifier": "every key, pair of nonces, packets of whole blocks, pair of block positions, and cipher state before", "why_tests_cant": "2^192 pairs of nonces per key", "anchors": ["BlockCiphers/AES/AES/AES_CTR/aes_ctr.cpp: aes_load_iv, aes_ctr_process_packet"]}
{"id": "C114", "title": "AES-CFB sessions with different IVs", "statement": "one message encrypted under one key with two IVs gives ciphertexts that differ in every block.", "quantifier": "every key, pair of IVs, message of whole blocks and its division into packets, builds", "why_tests_cant": "2^256 pairs of IVs per key", "anchors": ["BlockCiphers/AES/AES/AES_CFB/aes_cfb.cpp: aes_cfb_initialize, aes_cfb_process_packet"]}
{"id": "C115", "title": "Labeled HE: printed text and secrecy", "statement": "what he_encrypt prints while it encrypts (it goes to standard output, often a log) does not help a reader that has the ciphertext to find the message.", "quantifier": "every key, message, label, keystream state, behaviour of the random number generator; every reader", "why_tests_cant": "a test sees the ciphertext; the statement is about all readers of the output", "anchors": ["AsymmetricCryptography/Labeled_homomorphic_encryption/LabeledHE/labeled_he.cpp: he_encrypt, he_eval_sub", "AsymmetricCryptography/Labeled_homomorphic_encryption/muLabeledHE/mu_labeled_he.cpp: mu_he_encrypt, mu_he_eval_sub"]}
{"id": "C116", "title": "Joye-Libert: the Jacobi symbol hides the message", "statement": "the Jacobi symbol of a ciphertext modulo N, which everybody can compute, is the same for all messages (for draws coprime to N).", "quantifier": "every generated key, pair of messages, behaviour of the random number generator", "why_tests_cant": "all keys and messages; for a wrong choice of y the symbol would be the lowest bit of the message, and every decryption would still be right", "anchors": ["AsymmetricCryptography/Joye_libert/joye_libert.cpp: joye_libert_keygen, joye_libert_encrypt"]}
{"id": "C117", "title": "DES: every key bit counts", "statement": "encryption ignores the eight parity bits of a key, and each of the other 56 bits has an influence on it.", "quantifier": "every pair of keys", "why_tests_cant": "2^64 keys", "anchors": ["Legacy/DES/des.cpp: des_key_schedule_encrypt, des_process_packet_ecb"]}
{"id": "C118", "title": "Encrypt-then-MAC example: the tag covers the IV", "statement": "a receiver that uses another IV than the sender did reports an invalid tag instead of a wrong plaintext.", "quantifier": "every key, pair of IVs, plaintext; both sections of the example", "why_tests_cant": "2^256 pairs of IVs per key", "anchors": ["Example_AuthenticatedEncryption/example_ae.cpp: main"]}
{"id": "C119", "title": "Labeled HE: a known message does not reveal another", "statement": "who knows one message, its label and its ciphertext does not find another message from its label and ciphertext, if both were encrypted from the same keystream state (a key and IV loaded again).", "quantifier": "every keystream state, pair of messages and of labels, random numbers; every reader", "why_tests_cant": "the statement is about all readers; every ciphertext decrypts correctly", "anchors": ["AsymmetricCryptography/Labeled_homomorphic_encryption/LabeledHE/labeled_he.cpp: he_encrypt", "AsymmetricCryptography/Labeled_homomorphic_encryption/muLabeledHE/mu_labeled_he.cpp: mu_he_encrypt"]}
{"id": "C120", "title": "DES: encryption is not its own inverse", "statement": "apart from the four weak keys of the standard, encrypting twice does not give back every message, and not 2^32 blocks are their own ciphertexts.", "quantifier": "every key and block", "why_tests_cant": "2^64 keys and blocks; a round trip test passes", "anchors": ["Legacy/DES/des.cpp: des_key_schedule_encrypt, des_process_packet_ecb"]}
{"id": "C121", "title": "DES complementation", "statement": "the complement of a message, encrypted under the complement of the key, is the complement of its ciphertext.", "quantifier": "every key and message of whole blocks", "why_tests_cant": "2^64 keys and blocks", "anchors": ["Legacy/DES/des.cpp: des_key_schedule_encrypt, des_process_packet_ecb"]}
{"id": "C122", "title": "Joye-Libert: sums look like fresh ciphertexts", "statement": "the product of a ciphertext of m1 and a fresh encryption of m2 is distributed like a fresh encryption of m1 + m2 mod 2^k, so who gets it (even the owner of the key) learns nothing but the sum; with m2 = 0 this re-randomises a ciphertext.", "quantifier": "every key, ciphertext, pair of messages, and draw of the random number", "why_tests_cant": "a statement on the distribution over all N - 1 random numbers", "anchors": ["AsymmetricCryptography/Joye_libert/joye_libert.cpp: joye_libert_encrypt"]}
{"id": "C123", "title": "Stream ciphers: overlapping buffers", "statement": "if input and output are parts of one array, at whatever offsets, the output part becomes the encryption of what the input part contained before (as when a message is moved by the length of an IV while it is encrypted), and nothing else in the array changes.", "quantifier": "every cipher state, array, pair of offsets and size", "why_tests_cant": "depends on how the caller lays out its buffers; all offsets and sizes", "anchors": ["StreamCiphers/ChaCha/chacha.cpp: chacha_process_packet", "StreamCiphers/HC-128/hc128.cpp: hc128_process_packet", "StreamCiphers/Rabbit/rabbit.cpp: rabbit_process_packet", "StreamCiphers/Sosemanuk/sosemanuk.cpp: sosemanuk_process_packet", "BlockCiphers/AES/AES/AES_CTR/aes_ctr.cpp: aes_ctr_process_packet"]}
{"id": "C124", "title": "AES-CFB: two messages under one key and IV", "statement": "the ciphertexts show which leading blocks of the messages agree and the difference of the first blocks that do not; the blocks right after those are encrypted with different keystream blocks.", "quantifier": "every key, IV, pair of messages of whole blocks, division into packets, builds", "why_tests_cant": "all pairs of messages", "anchors": ["BlockCiphers/AES/AES/AES_CFB/aes_cfb.cpp: aes_cfb_initialize, aes_cfb_process_packet", "BlockCiphers/AES/AES_x86/AES_CFB_Carry-Over/aes_cfb.cpp: aes_cfb_process_packet", "BlockCiphers/AES/AES_ARM/AES_CFB_Carry-Over/aes_cfb.cpp: aes_cfb_process_packet"]}
{"id": "C125", "title": "Joye-Libert: message sizes other than that of the key", "statement": "encryption and decryption may be called with a smaller message size than the key was generated with: decryption with size i of a ciphertext made with any size gives the message mod 2^i.", "quantifier": "every key, message, pair of sizes up to that of the key, random number", "why_tests_cant": "all keys, messages and pairs of sizes", "anchors": ["AsymmetricCryptography/Joye_libert/joye_libert.cpp: joye_libert_encrypt, joye_libert_decrypt"]}
{"id": "C126", "title": "DES: table reads independent of the key", "statement": "which table entries DES reads (visible through the cache) does not depend on the key.", "quantifier": "every pair of keys and message", "why_tests_cant": "a test sees the output, not the memory accesses", "anchors": ["Legacy/DES/des.cpp: des_key_schedule_encrypt, des_process_packet_ecb, des_process_packet_ctr", "Legacy/DES/des.h: DES_ROUND"]}
{"id": "C127", "title": "Sosemanuk: table reads independent of the key", "statement": "which entries of the tables alpha and inv_alpha Sosemanuk reads (visible through the cache) does not depend on the key.", "quantifier": "every pair of keys, IV and message", "why_tests_cant": "a test sees the output, not the memory accesses", "anchors": ["StreamCiphers/Sosemanuk/sosemanuk.h: sosemanuk_lfsr_update", "StreamCiphers/Sosemanuk/sosemanuk.cpp: sosemanuk_process_packet"]}
{"id": "C128", "title": "AEGIS: table reads independent of the key", "statement": "which entries of T0 to T3 the portable AEGIS code reads (visible through the cache) does not depend on the key.", "quantifier": "every pair of keys, IV, associated data and message; sealing and opening", "why_tests_cant": "a test sees the output, not the memory accesses", "anchors": ["StreamCiphers/AEGIS/AEGIS/aegis_128.h: round, aegis_state_update", "StreamCiphers/AEGIS/AEGIS/aegis_128.cpp: aegis_encrypt_packet, aegis_decrypt_packet"]}
{"id": "C129", "title": "Labeled HE: products look like fresh ciphertexts", "statement": "the ciphertext part of a homomorphic product (of two or three factors, or with a known constant) is distributed like a fresh Joye-Libert encryption of the value it holds, so who decrypts it learns nothing else about the factors.", "quantifier": "every key, factors, constants, and draw of the random number; both variants of the scheme", "why_tests_cant": "a statement on the distribution over all N - 1 random numbers", "anchors": ["AsymmetricCryptography/Labeled_homomorphic_encryption/LabeledHE/labeled_he.cpp: he_eval_mult, he_eval_mult_3, he_eval_cmult", "AsymmetricCryptography/Labeled_homomorphic_encryption/muLabeledHE/mu_labeled_he.cpp: mu_he_eval_mult, mu_he_eval_mult_3, mu_he_eval_cmult"]}
{"id": "C130", "title": "AES-CFB, AEGIS and DES: overlapping buffers", "statement": "if input and output are parts of one array, at whatever offsets, the call does what it does with separate copies of the two parts: same output, state, tag and return value, and nothing else in the array changes.", "quantifier": "every state, array, pair of offsets and size", "why_tests_cant": "depends on how the caller lays out its buffers; all offsets and sizes", "anchors": ["BlockCiphers/AES/AES/AES_CFB/aes_cfb.cpp: aes_cfb_process_packet", "StreamCiphers/AEGIS/AEGIS/aegis_128.cpp: aegis_encrypt_packet, aegis_decrypt_packet", "Legacy/DES/des.cpp: des_process_packet_ecb, des_process_packet_ctr"]}
{"id": "C131", "title": "SHA-256 and HMAC: collisions come from the compression function", "statement": "two different messages have different SHA-256 digests, and two messages or keys different HMAC tags, unless the compression function gives the same output for two different inputs among those that it was called with (padding and key handling add no collisions).", "quantifier": "every pair of messages (of any lengths), keys", "why_tests_cant": "all pairs of messages; wrong padding gives right digests for most test vectors", "anchors": ["Hash/SHA/SHA-2/SHA-256/sha-256.cpp: sha256_process_message", "Authentication/HMAC-SHA-256/sha-256.cpp: sha256_process_message", "Authentication/HMAC-SHA-256/hmac.cpp: hmac_load_key, hmac_tag_generation"]}
{"id": "C132", "title": "MD5: different messages have different digests", "statement": "Two different messages get different MD5 digests, except where the two runs contain two different inputs of the compression function with the same output; no such pair can be written down.", "quantifier": "every pair of messages, contents appended to them", "why_tests_cant": "all pairs of messages", "anchors": ["Legacy/MD5/md5.cpp: MD5Init, MD5Update, MD5Final, MD5_process_packet"]}
{"id": "C133", "title": "Rabbit: the state does not come back", "statement": "In a session with any key, however IVs and packets came before, processing packets that use at least one and fewer than 63*2^26 keystream blocks (63 GiB) never leaves the eight counters and the carry bit as they were, so no state is used twice in between. As long as no counter sum is exactly 2^32 the same holds up to 2^256-2 blocks.", "quantifier": "every key, every history of IV loads and packets, every list of packets within the bound", "why_tests_cant": "a repetition would show only after gigabytes, for special counter values", "anchors": ["StreamCiphers/Rabbit/rabbit.h: rabbit_counter, rabbit_next_state", "StreamCiphers/Rabbit/rabbit.cpp: rabbit_process_packet"]}
{"id": "C134", "title": "Rabbit: different IVs do not lead into the same state", "statement": "Two different IVs loaded under one key never lead to the same counters and carry bit after the same number of keystream blocks.", "quantifier": "every key and history, every pair of different 8 byte IVs, every number of blocks", "why_tests_cant": "2^128 pairs of IVs for each of 2^128 keys", "anchors": ["StreamCiphers/Rabbit/rabbit.cpp: rabbit_load_iv, rabbit_process_packet", "StreamCiphers/Rabbit/rabbit.h: rabbit_counter"]}
{"id": "C135", "title": "Rabbit test program shows the key setup of RFC 4503", "statement": "With DEBUG, test_rf prints the key, its pieces, the expanded state, the state after each of the four iterations and the master state as RFC 4503 defines them, for every key text.", "quantifier": "every text of 32 upper-case hexadecimal digits as key, every IV text, every content of uninitialised arrays", "why_tests_cant": "the program runs with one key", "anchors": ["StreamCiphers/Rabbit/test_rf.cpp: main", "StreamCiphers/Rabbit/rabbit.cpp: rabbit_load_key, print_key, print_inner_state"]}
{"id": "C136", "title": "Hex encoder: text and bytes in overlapping buffers", "statement": "hex_encode and hex_decode give the same result when the two buffers overlap, in particular when text is decoded or bytes are encoded in place, as with separate buffers, and the rest of the array stays as it is.", "quantifier": "every content of the array, every pair of offsets, every length with room for the result", "why_tests_cant": "the result depends on which byte is read before it is overwritten, for every pair of offsets and every length", "anchors": ["Encoders/Hex/encoder.cpp: hex_encode, hex_decode"]}
{"id": "C137", "title": "AEGIS: two messages under one key and IV", "statement": "If a key and IV are used for two messages with the same associated data, the ciphertexts agree in the common leading blocks and show the difference of the messages in the first differing block and in the one after it; the block after that is encrypted with different keystreams.", "quantifier": "every key, IV, associated data and pair of messages, each of the three builds", "why_tests_cant": "all messages with a common beginning", "anchors": ["StreamCiphers/AEGIS/AEGIS/aegis_128.cpp: aegis_encrypt_packet, aegis_encrypt", "StreamCiphers/AEGIS/AEGIS/aegis_128.h: aegis_state_update"]}
{"id": "C138", "title": "Packet functions and the addresses of their buffers", "statement": "The packet functions of ChaCha, HC-128, Rabbit, Sosemanuk, AES-CTR, AES-CFB and AEGIS-128 take uint8_t pointers and access them as uint32_t. If the addresses of both buffers are multiples of four, every such access is aligned and the result does not depend on the addresses; if not, every packet long enough for one word access is undefined behaviour, and shorter packets are processed as always.", "quantifier": "all addresses, states, buffers and packet lengths for which the function is defined apart from alignment", "why_tests_cant": "x86 tolerates misaligned accesses, so tests there pass (unless the compiler vectorises the loop); the bug shows on other machines or with other flags, and depends on where the allocator and the caller's header put the buffer", "anchors": ["StreamCiphers/ChaCha/chacha.cpp:chacha_process_packet", "StreamCiphers/HC-128/hc128.cpp:hc128_process_packet", "StreamCiphers/Rabbit/rabbit.cpp:rabbit_process_packet", "StreamCiphers/Sosemanuk/sosemanuk.cpp:sosemanuk_process_packet", "BlockCiphers/AES/AES/AES_CTR/aes_ctr.cpp:aes_ctr_process_packet", "BlockCiphers/AES/AES/AES_CFB/aes_cfb.cpp:partial_state_update", "StreamCiphers/AEGIS/AEGIS/aegis_128.cpp:aegis_encrypt"]}
{"id": "C139", "title": "Initialising an object again", "statement": "chacha_initialize, hc128_initialize, rabbit_load_key, serpent_key_schedule, aes_load_key with aes_load_iv, aes_cfb_initialize and the two key schedules of DES leave an object that depends on key and IV only: it does not matter whether the object was fresh, full of stack garbage or left over from another session, nor what the local arrays contained before.", "quantifier": "every content of the object and of the local arrays, every key (of every length for Serpent) and IV", "why_tests_cant": "a test starts from the memory the process happens to have, mostly zeros; a missing assignment shows only with other contents", "anchors": ["StreamCiphers/ChaCha/chacha.cpp:chacha_initialize", "StreamCiphers/HC-128/hc128.cpp:hc128_initialize", "StreamCiphers/Rabbit/rabbit.cpp:rabbit_load_key", "BlockCiphers/Serpent/serpent.cpp:serpent_key_schedule", "BlockCiphers/AES/AES/AES_CTR/aes_ctr.cpp:aes_load_key", "BlockCiphers/AES/AES/AES_CFB/aes_cfb.cpp:aes_cfb_initialize", "Legacy/DES/des.cpp:des_key_schedule_encrypt, des_key_schedule_decrypt"]}
{"id": "C140", "title": "AES-CFB: the incomplete last block", "statement": "If the length of a packet is not a multiple of sixteen, AES-CFB encrypts the remaining bytes by XOR with the leading bytes of the encrypted shift register, as other CFB-128 implementations do, so that they can decrypt it; and after the packet the register holds the last sixteen bytes of the old register and the ciphertext, so that the session can go on. (Violated: the words of the encrypted register are used from the last to the first, and for one remaining byte the last byte of its word, so that the ciphertext is the standard one only if the bytes in question happen to be equal; the register is right only after a remainder of four bytes, in the x86 build.)", "quantifier": "every key, IV and packet whose size the function supports, every build; for the register every state", "why_tests_cant": "the remainder is decrypted correctly by the library itself, so round trips pass; only another implementation, or a continuation of the session after such a packet, shows the difference, and which bytes are used depends on the length", "anchors": ["BlockCiphers/AES/AES/AES_CFB/aes_cfb.cpp:aes_cfb_process_packet, partial_state_update", "BlockCiphers/AES/AES_x86/AES_CFB_Carry-Over/aes_cfb.cpp:aes_cfb_process_packet", "BlockCiphers/AES/AES_ARM/AES_CFB_Carry-Over/aes_cfb.cpp:aes_cfb_process_packet"]}
{"id": "C141", "title": "Packets of size zero", "statement": "A call of a packet function with size zero, or with a negative size where the size is an int, reads and writes no byte of the buffers and leaves the session as it was: in a session the empty packets may be left out without any effect on the other packets and on the final state. (Violated by Sosemanuk, which generates and discards sixteen bytes of keystream.)", "quantifier": "every state, all buffers, every session with empty packets at any positions", "why_tests_cant": "a test of an empty packet compares the (empty) output; the effect on the session shows only in later packets", "anchors": ["StreamCiphers/ChaCha/chacha.cpp:chacha_process_packet", "StreamCiphers/HC-128/hc128.cpp:hc128_process_packet", "StreamCiphers/Rabbit/rabbit.cpp:rabbit_process_packet", "StreamCiphers/Sosemanuk/sosemanuk.cpp:sosemanuk_process_packet", "BlockCiphers/AES/AES/AES_CTR/aes_ctr.cpp:aes_ctr_process_packet", "BlockCiphers/AES/AES/AES_CFB/aes_cfb.cpp:aes_cfb_process_packet", "BlockCiphers/Serpent/serpent.cpp:serpent_process_packet", "Legacy/DES/des.cpp:des_process_packet_ecb, des_process_packet_ctr"]}
{"id": "C142", "title": "DES: equal blocks and different nonces", "statement": "In electronic codebook mode two blocks of ciphertext under one key are equal exactly if the blocks of plaintext are. In counter mode packets with different 96 bit nonces use different keystream: no block of the one keystream is a block of the other. (Violated: the third word of the nonce does not enter; packets whose nonces agree in the other two, and the blocks of one packet, are encrypted with one and the same block, so that sums of ciphertext are sums of plaintext.)", "quantifier": "every key schedule, all messages and nonces, all pairs of blocks", "why_tests_cant": "the absence of a repeated keystream block for all nonces cannot be tested; with one nonce per test its third word is never looked at", "anchors": ["Legacy/DES/des.cpp:des_process_packet_ecb, des_process_packet_ctr"]}
{"id": "C143", "title": "HC-128: table reads independent of the key", "statement": "which entries of the tables P and Q HC-128 reads (visible through the cache), during initialisation and for a packet, does not depend on the key. (Violated: two of the reads of each step are at places given by two bytes of a word of the state.)", "quantifier": "every pair of keys, IV and message", "why_tests_cant": "a test sees the output, not the memory accesses", "anchors": ["StreamCiphers/HC-128/hc128.h:h1, h2", "StreamCiphers/HC-128/hc128.cpp:hc128_initialize, hc128_generate_keystream, hc128_process_packet"]}
{"id": "C144", "title": "AEGIS-128: a packet belongs to one key", "statement": "A ciphertext with its tag is accepted under one key, IV and associated data only: who accepts a packet knows that the sender used the same key and associated data. (Violated: for every other key, every other IV and every other beginning of the associated data there are 80 bytes that continue the latter such that all packets of the first key are accepted under the second key, with the same ciphertext, tag and message.) Under one key, IV and associated data a ciphertext belongs to one message.", "quantifier": "all pairs of keys, IVs and associated data of at least five whole blocks and at most 2^33 bytes, every message whose size the function supports, all pairs of builds", "why_tests_cant": "the continuation is one of 2^640; no test with random associated data meets it, and packets under wrong keys are always rejected in tests", "anchors": ["StreamCiphers/AEGIS/AEGIS/aegis_128.cpp: aegis_encrypt_packet, aegis_decrypt_packet"]}
{"id": "C145", "title": "Results do not depend on the byte order of the machine", "statement": "ChaCha, HC-128, Sosemanuk, AES-CTR, SHA-256 and HMAC give the same bytes on machines of either byte order, so that a packet, a digest or a tag of one machine is understood by another. (Violated: all of them go from bytes to words through cast pointers or memcpy. On a big-endian machine the keystreams are those for the key and the nonce with every word reversed, again with every word reversed; digests have their words reversed; tags are those of HMAC over that other hash function; AES-CTR also starts at counter value 2^24 instead of 1.) Machines of the same byte order understand each other.", "quantifier": "every key, nonce, message and packet size the functions support, both byte orders, every buffer and every content of uninitialised memory", "why_tests_cant": "tests run on one machine, which is little-endian; with the test vectors as reference they would have to be run on hardware the authors do not have", "anchors": ["StreamCiphers/ChaCha/chacha.cpp: chacha_initialize, chacha_process_packet", "StreamCiphers/HC-128/hc128.cpp: hc128_initialize, hc128_process_packet", "StreamCiphers/Sosemanuk/sosemanuk.cpp: sosemanuk_load_key, sosemanuk_load_iv, sosemanuk_process_packet", "BlockCiphers/AES/AES/AES_CTR/aes_ctr.cpp: aes_ctr_load_iv, aes_ctr_process_packet", "Hash/SHA/SHA-2/SHA-256/sha-256.cpp: sha256_process_message", "Authentication/HMAC-SHA-256/hmac.cpp: hmac_load_key, hmac_tag_generation"]}
{"id": "C146", "title": "SHA-256, HMAC and MD5: the result over the message", "statement": "The digest or tag may be written into the array that contains the message, at any place, also over the message: it is the digest or tag of what the array contained before the call, and no other byte of the array changes. So digests can be chained in one buffer.", "quantifier": "every array, message and pair of places in it, every tag length up to 32, key, content of uninitialised memory, and length of a chain; the copy of SHA-256 in Hash for lengths that it supports (C03)", "why_tests_cant": "there are too many pairs of places, and a function that writes a part of the result early passes all tests with separate buffers", "anchors": ["Hash/SHA/SHA-2/SHA-256/sha-256.cpp: sha256_process_message", "Authentication/HMAC-SHA-256/hmac.cpp: hmac_tag_generation", "Legacy/MD5/md5.cpp: MD5_process_packet"]}
{"id": "C147", "title": "Asymmetric functions: nothing of key, message or random numbers stays in memory", "statement": "When a function of Joye-Libert or of labeled homomorphic encryption returns, its local variables are released, so that a program can call it any number of times, and what it computed from the secret key, the message and the random numbers is not found in the memory of the program later. (Violated: no function calls mpz_clear. Every call of every function but two leaves its variables; key generation leaves both factors of the modulus, decryption leaves p - 1 and the mask of the message, encryption leaves the coin and y^m mod N, against which anybody can check a guess of the message.)", "quantifier": "every session of calls with any arguments, every key, message, label and random numbers", "why_tests_cant": "a test sees the results only; a leak checker counts blocks for one run, and does not say what is in them", "anchors": ["AsymmetricCryptography/Joye_libert/joye_libert.cpp: joye_libert_keygen, joye_libert_encrypt, joye_libert_decrypt", "AsymmetricCryptography/Labeled_homomorphic_encryption/LabeledHE/labeled_he.cpp: he_encrypt, he_eval_*, he_decrypt", "AsymmetricCryptography/Labeled_homomorphic_encryption/muLabeledHE/mu_labeled_he.cpp: the same functions"]}
{"id": "C148", "title": "Cipher objects: a stolen object does not open recorded packets", "statement": "Somebody who gets the cipher object after a session (from a core dump, a stolen device, or memory released without being cleared) and who recorded the packets cannot read the messages sent before. (Violated by every cipher. The state of HC-128, which keeps no key, can be run backwards packet by packet, which gives the messages and, through the initialisation run backwards, key and IV. The Rabbit object keeps the state after the key was loaded up to one carry, so one of two states decrypts everything. The Sosemanuk object decrypts everything after its IV is loaded again. Each of the eleven round keys in an AES object gives the key. ChaCha and AEGIS objects contain the key. There is no function that clears an object; initialising it again with another key removes every trace.)", "quantifier": "every key and IV, every session of packets (and of IV loads), of all sizes that are defined behaviour", "why_tests_cant": "that no program finds the messages, or that one always does, is a statement on all sessions", "anchors": ["StreamCiphers/HC-128/hc128.cpp: hc128_initialize, hc128_process_packet", "StreamCiphers/Rabbit/rabbit.cpp: rabbit_load_key, rabbit_process_packet", "StreamCiphers/Sosemanuk/sosemanuk.cpp: sosemanuk_load_iv", "BlockCiphers/AES/AES/AES_CTR/aes_ctr.cpp: aes_load_key", "BlockCiphers/AES/AES/AES_CFB/aes_cfb.cpp: aes_cfb_initialize", "StreamCiphers/ChaCha/chacha.cpp: chacha_initialize", "StreamCiphers/AEGIS/AEGIS/aegis_128.cpp: aegis_load_key"]}
{"id": "C149", "title": "AEGIS-128: a packet in one array", "statement": "IV, associated data, message, ciphertext and tag may be parts of one array, as in a network packet that is put together and opened where it is: IV, associated data and the expected tag are read before anything is written, so the ciphertext and tag stored are those of what was in the array before the call, and opening decides on what was in the array before the call. A packet with these parts beside each other, in any order, opens in place to the message. (Holds with message and ciphertext as in C130; violated for a message encrypted in its place in the packet, and a tag stored over ciphertext, IV or associated data of course makes the packet useless.)", "quantifier": "every array, all places of the five parts, every key, message of no or at least 15 bytes and associated data of at most 2^33 bytes, both functions, every build on either side", "why_tests_cant": "the places of five parts in an array are too many to try, and a function that reads the tag or the associated data late passes all tests with separate buffers", "anchors": ["StreamCiphers/AEGIS/AEGIS/aegis_128.cpp: aegis_encrypt_packet, aegis_decrypt_packet, aegis_finalize"]}
{"id": "C150", "title": "Symmetric functions: nothing of key or message stays in the heap", "statement": "The memory that a function takes from the heap and gives back contains nothing of key, keystream or message at the moment it is given back, so that a later allocation, or a reader of freed memory, gets nothing of them. (Violated by four of the five modules that use the heap. hmac_tag_generation gives back a block with the inner key and the message; with it anybody makes valid tags of every message under this key. chacha_process_packet gives back the keystream, which opens this packet and every packet of the same key and nonce that is not longer. The Serpent key schedule gives back the last word of the round keys. A Sosemanuk packet gives back a word per sixteen bytes from which, when the message is known, follows every fourth word of the linear register, and with ten of them the whole register. Holds for AEGIS, which gives back the padded associated data at most.)", "quantifier": "every key, IV, nonce, message, associated data, tag, size and content of uninitialised memory", "why_tests_cant": "a test sees the results only; freed memory has no defined content for a program, so no test can read it, but it is there", "anchors": ["Authentication/HMAC-SHA-256/hmac.cpp: hmac_tag_generation, hmac_tag_validation", "StreamCiphers/ChaCha/chacha.cpp: chacha_process_packet", "StreamCiphers/AEGIS/AEGIS/aegis_128.cpp: aegis_process_ad", "BlockCiphers/Serpent/serpent.cpp: serpent1, rounds, serpent_key_schedule", "StreamCiphers/Sosemanuk/sosemanuk.cpp: sosemanuk_load_key, sosemanuk_process_packet"]}
{"id": "C151", "title": "Sosemanuk: conditions independent of the key", "statement": "Which way the conditions in the code go while a packet is processed depends on the size of the packet only, not on key, IV or message, so that an observer of the running time or of the branch predictor learns nothing about them. (Violated: the condition in mux (sosemanuk.h:42), the only one in the ciphers that is not about sizes, asks for the lowest bit of the register R1, four times for every sixteen bytes. It tells this bit of every state the generator goes through, and with the linear register, which the table reads tell, a second one. The number of conditions depends on the size only.)", "quantifier": "every state, message and size, all packets; every key and IV for the negation", "why_tests_cant": "tests compare results; the way a condition went is not part of them", "anchors": ["StreamCiphers/Sosemanuk/sosemanuk.h: mux, sosemanuk_fsm_update", "StreamCiphers/Sosemanuk/sosemanuk.cpp: sosemanuk_process_packet"]}
{"id": "C152", "title": "HC-128: sessions of short packets", "statement": "In a session of short packets each packet is encrypted with fresh keystream: packets whose messages are known tell nothing about the others, whatever the number of packets. (Violated: every call begins again at the start of the table P, so that packets of at most 4n bytes, n at most 512, change only the first n words of P and never Q. With packets of one to four bytes the keystream words are an arithmetic progression, exclusive-ored with a constant: their lowest j bits repeat every 2^j packets. A known packet opens the first byte of every 256th packet before and after it, two bytes of every 65536th, and after 2^32 packets everything. With packets of two words, or of three, the same holds for the last word of each packet. The cipher itself steps through both tables.)", "quantifier": "every key and IV, every state, every number of packets, of all sizes up to 2048 bytes for what is left unchanged, of one to four bytes (or all of two, or all of three words) for the keystream", "why_tests_cant": "test vectors are one packet long; the repetition shows after 256 packets in one byte, or in single bits, and that it is there for all keys no test can say", "anchors": ["StreamCiphers/HC-128/hc128.cpp: hc128_generate_keystream, hc128_process_packet"]}
{"id": "C153", "title": "Labeled HE: sessions with short messages", "statement": "Who knows one message of a session, all labels and all ciphertexts learns nothing about the other messages. (Violated for messages of 32 bits, the size in both example programs, 64 and 96 bits. Each encryption takes its label value from a packet of its own of the HC-128 stream, whose last word is the lowest of the label value, so by C152 one known message gives the lowest j bits of every message whose number in the session differs by a multiple of 2^j: the parity of every other message, the lowest byte of every 256th, the lowest word after 2^32. It needs labels of as many bytes; with messages of 32 bits small numbers do for j up to 8. Without a known message the labels and first components tell nothing about the lowest word of any one message.)", "quantifier": "every key, session, cipher state, message, label that fits, random numbers and uninitialised memory, both variants", "why_tests_cant": "every ciphertext decrypts correctly; a test would have to know which bits of which messages to compare, and a statement on readers is about all of them", "anchors": ["AsymmetricCryptography/Labeled_homomorphic_encryption/LabeledHE/labeled_he.cpp: he_encrypt", "AsymmetricCryptography/Labeled_homomorphic_encryption/muLabeledHE/mu_labeled_he.cpp: mu_he_encrypt", "StreamCiphers/HC-128/hc128.cpp: hc128_process_packet"]}
{"id": "C154", "title": "HC-128: sessions of packets of ordinary size", "statement": "Who knows the messages of some packets of a session learns nothing about the messages of the others, whatever the size of the packets. (Violated for packets of eight to 2000 bytes, all the sizes a network carries, and they may differ from packet to packet. Since every call begins again at the start of the table P, keystream word 0 of each packet is a fixed function of words 0 and 1 of the packet before and three words that are constant for the whole session. Two known packets sent one after the other and any other known packet give the first bit of the message after it; with packets of sixteen bytes bits of three words. Packets whose sizes are multiples of 4096 bytes are encrypted with the one stream of HC-128.)", "quantifier": "every state the cipher can be in, every number of packets and all sizes between 8 (12, 16) and 2000 bytes in any order; every key, IV and all sizes that are multiples of 4096 for what holds", "why_tests_cant": "every packet decrypts correctly and the first packet has the keystream of the test vectors; the relation is between packets and holds for every key", "anchors": ["StreamCiphers/HC-128/hc128.cpp: hc128_generate_keystream, hc128_process_packet"]}
{"id": "C155", "title": "Rabbit: no two keys are equivalent", "statement": "rabbit_load_key leaves different states for different keys. Already the counters and the carry bit determine the key, except that they are the same for the key of zeros and the key of ones; for these two the other half of the state differs.", "quantifier": "all pairs of keys of 16 bytes, also those for which the code drops a carry", "why_tests_cant": "there are about 2^255 pairs of keys; the one pair whose counters meet would not be found by random tests, and no test can exclude a second one", "anchors": ["StreamCiphers/Rabbit/rabbit.cpp: rabbit_load_key", "StreamCiphers/Rabbit/rabbit.h: rabbit_counter, rabbit_next_state"]}
{"id": "C156", "title": "Sosemanuk: no two keys are equivalent", "statement": "Sessions with two different keys, of equal or of different lengths up to the 32 bytes allowed, use different round keys. (Violated: a key of fewer than 32 bytes is extended with 80 00 ... 00, also to 32 bytes, so a key of 16 bytes, say, and one of 32 bytes give the same ciphertext for all IVs and packets: every short key has exactly one such partner. Among keys of 32 bytes, and among all shorter ones, there are none.)", "quantifier": "all pairs of keys of at most 32 bytes, all objects, IVs and sessions", "why_tests_cant": "the pairs are a vanishing part of all pairs, so random tests do not meet them, and tests cannot show that there are no others", "anchors": ["StreamCiphers/Sosemanuk/sosemanuk.cpp: sosemanuk_load_key, sosemanuk_load_iv", "StreamCiphers/Sosemanuk/serpent.cpp: serpent_key_schedule"]}
{"id": "C157", "title": "Stack use does not grow with the message", "statement": "SHA-256, HMAC and the stream ciphers can process a message of any size they accept on a stack of the usual size. (Violated: both copies of sha256_process_message declare an array as large as the padded message and hc128_process_packet one as large as the packet, so a message as large as the stack, 8 MiB by default, ends the program; likewise hmac_tag_generation, hmac_tag_validation and, for such a key, hmac_load_key. What they need is exactly the padded size of what is hashed and 320 bytes; 160 more in HMAC, the tag on top in the validation. With as much the result is the right one. The packet functions of ChaCha, Rabbit and Sosemanuk need at most 64 bytes for any size.)", "quantifier": "every message, key, tag, packet and size of the stack, contents of uninitialised memory", "why_tests_cant": "tests use short messages; the limit is a property of the machine, and that a given size suffices for all messages of a length no test shows", "anchors": ["Hash/SHA/SHA-2/SHA-256/sha-256.cpp: sha256_process_message", "Authentication/HMAC-SHA-256/sha-256.cpp: sha256_process_message", "Authentication/HMAC-SHA-256/hmac.cpp: hmac_load_key, hmac_tag_generation, hmac_tag_validation", "StreamCiphers/HC-128/hc128.cpp: hc128_process_packet", "StreamCiphers/ChaCha/chacha.cpp: chacha_process_packet", "StreamCiphers/Rabbit/rabbit.cpp: rabbit_process_packet", "StreamCiphers/Sosemanuk/sosemanuk.cpp: sosemanuk_process_packet"]}
{"id": "C158", "title": "HMAC: no two keys are equivalent", "statement": "Different keys of at most 64 bytes give different tags for some message. (Violated, as RFC 2104 has it: a key and the same key with zeros appended are one, and a key of more than 64 bytes is the same as its SHA-256 digest used as a key; all tags and all verdicts agree. Exactly these pairs leave the same object: after hashing keys of more than 64 bytes, those that differ in zeros at the end. Keys of at most 64 bytes that are equally long, or that do not end in zero, leave different objects.)", "quantifier": "all pairs of keys of any lengths, all messages, tags, sizes and contents of uninitialised memory", "why_tests_cant": "the pairs are rare among random keys, and tests cannot show that there are no others", "anchors": ["Authentication/HMAC-SHA-256/hmac.cpp: hmac_load_key, hmac_tag_generation, hmac_tag_validation"]}
{"id": "C159", "title": "Joye-Libert: the public key hides its factors for every message size", "statement": "joye_libert_keygen makes a public key from which p cannot be computed, for every pair of sizes it accepts. (Violated: p is 1 modulo 2^k for messages of k bits, so the lowest k bits of N are those of q. If q is below 2^k, which a message size above half the key size brings about and nothing checks, p is N divided by N mod 2^k and everybody decrypts. In general q is one of q/2^k + 1 numbers that everybody can write down, and the square root of as many multiplications suffice: for any x and B the numbers x^(N-r) / x^(2^k i), i < B, and x^(2^k B j), j up to q/(2^k B), meet modulo p. With a q above 2^k the one division gives no factor.)", "quantifier": "every generated key: all random numbers, message sizes, key sizes, primality tests that err or not (that do not err for the meeting lists), every ciphertext and every base x", "why_tests_cant": "key generation, encryption and decryption work for these sizes; that a key can be read from the other must be proved for all of them", "anchors": ["AsymmetricCryptography/Joye_libert/joye_libert.cpp: joye_libert_keygen, joye_libert_decrypt"]}
{"id": "C160", "title": "AES-CTR, Rabbit and Sosemanuk: key and IV can be loaded in either order", "statement": "The interfaces have one function for the key and one for the IV and name no order: a session whose two calls come in the other order is the same session, and a key that is loaded is the key of the packets that follow. (Violated by Rabbit and Sosemanuk, without any error. With Rabbit an IV loaded before the key is lost: all sessions of the key have the same keystream, that of no IV. With Sosemanuk a key has no effect on any packet until an IV is loaded: if the IV comes first, the packets are encrypted under what was in the object before, zeros or the last key, and whoever knows that opens all of them without the key. AES-CTR is as stated.)", "quantifier": "all keys, IVs, contents of the object before, and sequences of packets of any number and sizes", "why_tests_cant": "sender and receiver with the same wrong order understand each other, so round-trip tests pass; that no packet ever depends on the key must be proved for all sequences of packets", "anchors": ["StreamCiphers/Rabbit/rabbit.cpp: rabbit_load_key, rabbit_load_iv", "StreamCiphers/Sosemanuk/sosemanuk.cpp: sosemanuk_load_key, sosemanuk_load_iv, sosemanuk_process_packet", "BlockCiphers/AES/AES/AES_CTR/aes_ctr.cpp: aes_load_key, aes_load_iv"]}
{"id": "C161", "title": "DES: chosen messages do not help to find the key", "statement": "An attacker who may have messages encrypted has to try keys, as with DES. (Violated: all sixteen rounds use the first round key, so blocks one round apart have ciphertexts one round apart, which shows, and two such blocks give two values of the round function. For every key, from the ciphertext of one chosen message of 2^17 blocks, 1 MiB, a program without the key computes a list of round keys, 65536 at most for each two blocks that match, and one of them encrypts all packets as the key does. One value of the round function at a known point leaves exactly 65536 of the 2^48 round keys, each of them consistent with it.)", "quantifier": "all keys, all chosen halves, all contents of the destination; all points and values of the round function", "why_tests_cant": "the ciphertexts look random to tests; that the list contains the key must be proved for all keys", "anchors": ["Legacy/DES/des.cpp: des_key_schedule_encrypt, des_process_packet_ecb"]}
{"id": "C162", "title": "Joye-Libert: key generation and encryption end", "statement": "With a primality test that is never wrong and a generator that sooner or later draws every number, `joye_libert_keygen` returns for every message size and key size, and `joye_libert_encrypt` for every key and message. (What holds: the search for q always ends, with the least prime above the draw that is 3 modulo 4; encryption always ends, with the first draw that is not 0; key generation ends exactly when some t from the draw's quotient by 2^k on has t and 2^k t + 1 both prime, and the key is then the one with the least such t and the first draw that is a square modulo neither prime. Violated for messages of 0 bits: unless the first draw is at most 2 key generation never returns.)", "quantifier": "all generators, message sizes, key sizes, keys and messages", "why_tests_cant": "a test that hangs shows nothing and a test that ends says nothing about other draws; that the loops end for all draws needs the existence of primes in progressions", "anchors": ["AsymmetricCryptography/Joye_libert/joye_libert.cpp: joye_libert_keygen, joye_libert_encrypt"]}
{"id": "C163", "title": "Joye-Libert: a build with DEBUG", "statement": "With `DEBUG` defined the library computes the same keys and ciphertexts, and what it prints can be kept in a log: it does not help to open ciphertexts. (The first part holds. The second is violated: key generation prints both primes, and a reader of the text opens every ciphertext that the owner of the key opens; encryption prints its random number, and a reader of that text with the public key decides for every message whether it is the encrypted one. The three lines with the symbols of y are the same for all keys.)", "quantifier": "all generators, sizes, keys, messages; for key generation all primality tests that accept only primes; for the check all ciphertexts that decryption opens", "why_tests_cant": "a test of one build sees neither that the other has the same results nor what its output gives away", "anchors": ["AsymmetricCryptography/Joye_libert/joye_libert.cpp: joye_libert_keygen, joye_libert_encrypt (DEBUG)"]}
{"id": "C164", "title": "AES: the six-round build", "statement": "The readme offers, with `-D ROUND_REDUCED`, a version of six rounds: with it the library encrypts with AES reduced to six rounds, in both modes, and two parties that built it understand each other. (What holds: for every key and block the portable code then computes AES without rounds 1 to 4, so with round key 0 and the last six round keys, and both modes are the standard ones over that function, for the sizes where they are without the flag; two parties with the same flags understand each other. Violated: it is not AES broken off after six rounds, whose round keys are the first seven; and builds with x86 or ARM intrinsics ignore the flag and compute ten rounds, so a portable six-round sender and a six-round receiver with intrinsics do not understand each other: the receiver of one block sees the plaintext xor the difference of the two ciphers.)", "quantifier": "all keys, IVs, nonces, blocks, sequences of packets of whole blocks (CFB) and of sizes divisible by four (CTR), all combinations of the flags", "why_tests_cant": "the official vectors are for ten rounds, so there is nothing to test the reduced version against, and a round trip within one build passes; the agreement for all inputs needs a proof", "anchors": ["BlockCiphers/AES/AES/AES_CFB/readme.txt", "BlockCiphers/AES/AES/AES_CFB/aes_cfb.cpp: aes_encrypt", "BlockCiphers/AES/AES/AES_CTR/aes_ctr.cpp: aes_encrypt", "BlockCiphers/AES/AES_x86/AES_CTR/aes_ctr.cpp: aes_encrypt", "BlockCiphers/AES/AES_ARM/AES_CTR/aes_ctr.cpp: aes_encrypt", "BlockCiphers/AES/AES_x86/AES_CFB_Carry-Over/aes_cfb.cpp: aes_encrypt", "BlockCiphers/AES/AES_ARM/AES_CFB_Carry-Over/aes_cfb.cpp: aes_encrypt"]}
{"id": "C165", "title": "Joye-Libert and labeled HE: having other ciphertexts decrypted does not open one", "statement": "Somebody who may ask the holder of the private key to decrypt any ciphertext except one learns nothing about the message of that one. (Violated, for every key: with one question, for a number that is not the ciphertext modulo N, and the public key the message is computed, for every ciphertext p does not divide; for the ciphertexts of labeled homomorphic encryption the question changes the first part only and works for every pair; for products it works as for Joye-Libert. A holder that refuses only the very number is asked for it plus N, since nothing checks that a ciphertext is below N; this works for all numbers. Two answers also tell whether p divides a number.)", "quantifier": "all keys, all ciphertexts that p does not divide (for the second and for the labeled pairs all), all label values", "why_tests_cant": "a test decrypts what was encrypted; that there is an attacker who succeeds for every key and ciphertext is a statement about all of them", "anchors": ["AsymmetricCryptography/Joye_libert/joye_libert.cpp: joye_libert_decrypt", "AsymmetricCryptography/Labeled_homomorphic_encryption/LabeledHE/labeled_he.cpp: he_decrypt", "AsymmetricCryptography/Labeled_homomorphic_encryption/muLabeledHE/mu_labeled_he.cpp: mu_he_decrypt"]}
{"id": "C166", "title": "Joye-Libert and labeled HE: encryptions from one state of the random number generator", "statement": "Encryptions made in different runs of a program, or by different users, hide their messages from each other's readers as those of one run do, and users have different secret keys. (Violated, for every generator. The state is the caller's, and all example programs start it with gmp_randinit_mt without a seed, so that every run starts from one public state. Two ciphertexts from one state are equal exactly if the messages are; one known message and the public key then give the other message by a search through the messages, and who has the state finds the message by encrypting all of them, also that of a labeled ciphertext without cipher key and label. 32 bits, the size in the programs for labeled encryption, make the search easy. Users of the multi-user code who start from one state have one secret key, whatever the public key of the server, and everybody with that state computes it.)", "quantifier": "all keys, generators, states and messages, all labels and cipher states; ciphertexts that p does not divide", "why_tests_cant": "a test runs once, and its output looks random; that two runs relate for all generators, keys and messages needs a proof", "anchors": ["AsymmetricCryptography/Joye_libert/joye_libert.cpp: joye_libert_encrypt", "AsymmetricCryptography/Joye_libert/main.cpp", "AsymmetricCryptography/Labeled_homomorphic_encryption/LabeledHE/labeled_he.cpp: he_encrypt", "AsymmetricCryptography/Labeled_homomorphic_encryption/LabeledHE/main.cpp", "AsymmetricCryptography/Labeled_homomorphic_encryption/muLabeledHE/mu_labeled_he.cpp: mu_he_keygen, mu_he_encrypt", "AsymmetricCryptography/Labeled_homomorphic_encryption/muLabeledHE/main.cpp"]}
