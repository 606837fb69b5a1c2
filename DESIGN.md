# Formal model of pettsol/CryptoToolbox

All Lean sources are under `lean/Verif`:

* `Basic/` - bytes, words, byte orders, the outcome type `Res` (value or undefined behaviour), loops, and
  the input/output buffers `Io` of the packet functions.
* `Spec/` - specifications, written from the public standards (FIPS 180-4, FIPS 197, FIPS 46-3, SP 800-38A,
  RFC 1321, RFC 2104, RFC 7539, RFC 4503, the HC-128, AEGIS, Serpent and Sosemanuk papers), never from the code.
* `Model/` - the model of the C++ code, function by function; each definition cites file and lines.
* `Proof/` - helper lemmas.
* `Props/` - the property theorems named in `MANIFEST.json`, each with a concrete non-trivial `example` that
  meets its hypotheses.
* `Tests/` - published test vectors, run against the specifications with `#guard`. These are tests, not proofs.

`seeded/LOG.jsonl` records mutation tests: a realistic bug put into a scratch copy of the model, the claim it
breaks, and the theorems that no longer check.

## Trusted base

* Lean 4.33.0's kernel; axioms at most `propext`, `Classical.choice`, `Quot.sound` (each theorem of
  `MANIFEST.json` depends on a subset of these three; there are no axioms of our own, no `sorry`, no
  `native_decide`, no `bv_decide`). Finite case analyses use `decide` evaluated by the kernel.
* The hand translation of the C++ text to `Model/`. Nothing ties it mechanically to the code.
* The reading of the standards in `Spec/`, checked against published test vectors in `Tests/Vectors.lean` and, by the kernel, in `Tests/KernelVectors.lean`.
* For the hardware variants, the semantics of `AESENC`, `AESENCLAST`, `AESE`, `AESMC` as given in the manuals.
* For the GMP code, the documented behaviour of the `mpz_*` functions (`Model/Gmp.lean`).

## Machine model

Little-endian (except in `Verif.Model.BigEndian` and `BigEndianBlocks`, C145), 8-bit bytes, 32-bit `int`, 64-bit `long`/`size_t`, two's complement. Unaligned or aliased word
access through cast pointers behaves as on x86-64/AArch64 gcc (formally a strict-aliasing violation in C++; it
is not made an outcome of the model, except for alignment in `Verif.Model.Align`, C138). Reading or writing outside a buffer, bad shift amounts, signed overflow,
values computed from uninitialised memory, divergence, and library calls outside of their contract are distinct
outcomes `Res.ub`. Exhaustion of the heap is not modelled, that of the stack
only in `Verif.Model.Stack` (C157), which counts arrays and structures but not what a compiler adds. Buffers are lists of the bytes reachable
from a pointer; input and output pointers of a packet function are disjoint or equal (`Io.alias`).
Partial overlap of input and output is modelled for the stream ciphers and AES-CTR (`Verif.Model.Overlap`, C123) and for AES-CFB, AEGIS and DES (`Verif.Model.OverlapBlock`, C130).

## Simplifications, per component

* Hex: complete.
* SHA-256: `int n` is an integer with overflow as an outcome; the schedule array is a list.
* HMAC: the uninitialised arrays are filled by an arbitrary function `junk`; theorems quantify over it.
* MD5: the 64 steps, written out in the code, are a table of (function, index, shift, constant).
* ChaCha, HC-128: complete. HC-128's tables are 512-entry vectors.
* Rabbit: the `g` function multiplies with wrapping unsigned arithmetic where the code multiplies two `long`s;
  that the product can overflow is a property of its own (C64).
* DES: buffers of words, since the code casts its pointers to words.
* AES: three builds (portable, x86, ARM). The copy of the not yet initialised pointer `w_state_ptr` in the CTR code
  is not made an outcome. Without `ROUND_REDUCED` but in C164, where all
  combinations of the flags are modelled, and where stated.
* AES-CFB: the three builds are one definition with a parameter for the way the register is updated.
* AEGIS: three builds; in all properties but C149 associated data, IV and tag do not overlap the message buffers; the state is always
  a separate object.
* Serpent: the shipped configuration (`SOSEMANUK_H` defined in the header, 24 rounds) and, separately, the code
  under `#else` (32 rounds). `exit(1)` is `none`. The straight-line code was transcribed by a script.
* Sosemanuk: complete.
* Poly1305: only `clamp` exists as complete code.
* Joye-Libert, labeled HE: `mpz_t` are integers; random numbers and the primality test come from an environment
  `Env`; searches without a bound run on fuel, and theorems hold for every amount of fuel that suffices. The
  theorems on key generation assume that the primality test is right about the numbers it accepts. The
  random state is seeded with nothing in the code, so its values are a function of the call sequence; the model
  allows any values. The label array that is read without being written is an arbitrary `junk`.
  The models compute with values; `Model/LHEStore.lean` has the operations again on a store of variables, to
  say what happens when arguments share variables (C105 - C107).
* Multi-user labeled HE: as the single-user code; models, proofs and properties come from one template since the
  code is a copy with other names. Its `main.cpp` does not compile.
* Example programs: `example_ae.cpp` is modelled (split into sender and receiver). All other `main.cpp`,
  `test_vectors.cpp` and `*_test.cpp` files that compile are modelled, each as a
  function of the constants it declares that gives the printed lines (without lines of fixed text where noted).
* Side channels (C108 - C111, C126 - C128, C143, C151): `Model/AESTrace.lean`, `Model/AEGISTrace.lean`, `Model/DESTrace.lean`, `Model/HC128Trace.lean`, `Model/SosemanukTrace.lean`, `Model/SosemanukBranch.lean`, `Model/TagTrace.lean` and `Model/JLTrace.lean` have some
  functions a second time, with a log of the table entries read, a count of comparisons, or the outcomes of
  conditions. These are what the source text says; caches, timing, and what a compiler makes of the code are not
  modelled. Theorems `*_erase` say that without the log the functions are those of the other models.

## Plan per property

| id | property | modelled, and how it is proved | status |
|----|----|----|----|
| C01 | Hex round trip | `hex_encode`, `hex_decode`; induction over the byte string, finite case analysis per digit | proved: inputs below 2^30 bytes, beyond which the int index overflows |
| C02 | Hex decoding of hexadecimal text | `hex_decode`; per digit, all 22 upper-case and decimal digits; lower case by witness | partial: The code violates the property for lower-case letters, and exactly for those. |
| C03 | SHA-256 (Hash copy) computes FIPS 180-4 | both copies of `sha256_process_message` with the stack buffer as data; schedule and compression refined to FIPS 180-4, padding per length class | partial: The code violates the property for lengths 63 mod 64 (buffer overflow). Proved for all other lengths, refuted in general. |
| C04 | SHA-256 (HMAC copy) computes FIPS 180-4 | as C03, for the copy used by HMAC | proved: message length below 2^31-128, the range of the code's int n |
| C05 | SHA-256 padding stays inside its buffer | as C03; outcome of every length decided | partial: Proved for the HMAC copy; false for the stand-alone copy, for which the failing lengths are characterised exactly. |
| C06 | HMAC tags are RFC 2104 tags | `hmac_load_key`, `hmac_tag_generation`; refinement to RFC 2104 on top of C04 | proved: non-empty messages (the empty one is C07), tag length up to 32 |
| C07 | HMAC of the empty message | as C06; the SHA code returns early for length 0 | partial: The property is false: no tag is written for the empty message. Nothing positive is claimed. |
| C08 | HMAC validation decides tag equality | `hmac_tag_validation`; the compare loop decides equality of prefixes | proved |
| C09 | HMAC validation verdict is a function of its inputs | as C08, with two arbitrary contents of uninitialised memory | partial: The code violates the property for the empty message (compares with uninitialised memory). Proved for non-empty messages. |
| C10 | HMAC key normalisation | `hmac_load_key`; case analysis on the key length | proved |
| C11 | MD5 of a chunked message | `md5_init/update/final`; invariant: the context is an abstraction of the bytes so far | proved: chunks up to 2^32-64 bytes each (longer ones are C13), any total length |
| C12 | MD5 one-shot digest and context wiping | `md5_process_message` and wiping, from C11 | proved |
| C13 | MD5 update is defined for every 32-bit chunk length | `md5_update`, 32-bit index arithmetic; exact condition for leaving the buffer | partial: The code violates the property when buffered bytes plus size reach 2^32. Proved otherwise; the failing sizes are characterised exactly. |
| C14 | ChaCha packets are RFC 7539 encryption with initial counter 1 | `chacha_init`, `chacha_process_packet`; refinement to RFC 7539 with `int` size truncation | proved: any number of rounds; sizes below 2^31; after any history of packets |
| C15 | ChaCha round trip | from C14 and involution of xor | proved |
| C16 | ChaCha packets are history independent | from C14; the packet's result does not depend on the counter word | proved |
| C17 | ChaCha encrypts packets of every size | `chacha_process_packet` with the size as `int`; negative sizes do nothing | partial: The code violates the property: packets of 2^31..2^32-1 bytes are left unencrypted. Proved below 2^31, refuted in general; the exact behaviour for every size is proved. |
| C18 | HC-128 first packet is the HC-128 stream | `hc128_initialize`, `hc128_process_packet`; refinement of tables and steps to the sequence definition | proved: sizes up to 2^33-8, beyond which the int loop counter overflows |
| C19 | HC-128 lock-step round trip | lock-step lemma for stream ciphers (`Basic/Lockstep`) | proved |
| C20 | HC-128 packets continue one stream | step index modulo 1024; witness for the failure | partial: The code violates the property: the step counter restarts with each packet. Proved when the first packet is a multiple of 4096 bytes, refuted in general. |
| C21 | Rabbit conforms to RFC 4503 | `rabbit_load_key/iv`, `rabbit_process_packet`; refinement by an abstraction of the state, for runs that avoid the carry boundary; witness by kernel evaluation; `Verif.Spec.RabbitCarry` is RFC 4503 with the two rules that the code changes as parameters, and `rabbit_exact` says that every session follows it with the changed rules | partial: The code violates the property (carry dropped when a counter sum is exactly 2^32). Proved for all runs without such a sum, and for sessions of any length with or without IV; refuted with a concrete key. `rabbit_exact` says without hypotheses what the code computes in every session: RFC 4503 with two rules changed. |
| C22 | Rabbit IV load resynchronises | the saved master state does not contain the carry bit | partial: The code violates the property (carry bit not restored by the IV load). Proved when the carry bit agrees; refuted with a concrete history. |
| C23 | Rabbit lock-step round trip | lock-step lemma | proved |
| C24 | Rabbit packets continue one stream at block boundaries | packet loop over appended inputs | proved |
| C25 | Serpent bitsliced S-boxes | `S0`..`S7` as straight-line code; bitsliced code acts per bit position, 16 cases decided | proved |
| C26 | Serpent24 with 256-bit keys | `serpent_key_schedule`, `rounds`; refinement to Serpent24 | proved |
| C27 | Serpent short keys are padded per the specification and do not collide | key padding; the prekey recurrence is invertible, hence equal schedules mean equal padded keys | partial: The code violates the property: short keys are padded with 0x80 instead of 0x01, and a 32-byte key can collide with a shorter one. Colliding keys are characterised exactly. |
| C28 | Sosemanuk conforms to its specification | `sosemanuk_*`; refinement to the specification with the FSM as a parameter; tables decided on all 256 entries | partial: The code violates the property (update of the finite state machine). Proved: everything else conforms for 32-byte keys; the states in which the update is right are characterised exactly; refuted with a concrete key and IV. |
| C29 | Sosemanuk lock-step round trip | lock-step lemma | proved |
| C30 | Sosemanuk packets continue one stream at block boundaries | packet loop over appended inputs, exact number of blocks consumed | partial: The code violates the property: after whole blocks one more block of keystream is discarded. The offset is characterised exactly. |
| C31 | AES block function is FIPS 197 AES-128 | tables decided on all entries, rounds lifted to FIPS 197 states | proved: without ROUND_REDUCED, which is not the default |
| C32 | AES portable, x86 and ARM variants agree | block functions of three builds; instruction semantics refined to FIPS 197 rounds | proved: hardware instructions by their manual semantics; aes_round_reduced_differs shows the flag is a real restriction |
| C33 | AES-CTR packets are SP 800-38A counter mode | `aes_process_packet` (CTR), byte loop with its shift amounts; refinement to SP 800-38A | partial: The code violates the property for sizes not a multiple of 4 (wrong keystream byte, or undefined shift). Proved for all other sizes; characterised exactly; refuted in general. |
| C34 | AES-CTR lock-step round trip | lock-step lemma on the defined sizes | partial: The code violates the property for sizes 2 and 3 mod 4 (undefined shift). Proved for all other sizes; characterised exactly. |
| C35 | AES-CTR never repeats a counter block | model traced by the counter blocks it encrypts; injectivity of the 32-bit field | proved: up to 2^32 blocks per nonce, which is sharp |
| C36 | AES-CFB lock-step round trip | `aes_cfb_process_packet`, both modes; encryption and decryption keep equal registers | partial: The code violates the property for sizes 2 and 3 mod 4 (undefined shift). Proved for all other sizes and all three builds; characterised exactly. |
| C37 | AES-CFB is SP 800-38A CFB-128 on whole blocks | block loop refined to CFB-128 | proved |
| C38 | AES-CFB variants interoperate | three builds compared; witness after an incomplete block | partial: The code violates the property: after an incomplete block the x86 build is in another state. Proved for whole-block packets followed by one of any defined size, and without restriction between portable and ARM. |
| C39 | AES-CFB self-synchronises | decryption register after a block is that ciphertext block | partial: Missing: sizes 2 and 3 mod 4, which are undefined behaviour. Proved for all other packet sequences. |
| C40 | AES-CFB in place | `Io` with equal pointers; witness for decryption | partial: The code violates the property for decryption (the register is loaded from the overwritten input). Proved for encryption; decryption only for the output of packets up to one block. |
| C41 | AEGIS round trip | `aegis_encrypt_packet`, `aegis_decrypt_packet`; refinement to AEGIS-128 and its round trip | partial: The code violates the property for messages of 1 to 14 bytes (undefined, see C44). Proved for all other lengths, between any two builds, also decrypting in place. |
| C42 | AEGIS rejects and wipes | verdict and output of decryption for every tag | partial: Missing: ciphertexts of 1 to 14 bytes, which are undefined behaviour. Proved for all other lengths. |
| C43 | AEGIS computes AEGIS-128 | refinement to the AEGIS paper | partial: Missing: messages of 1 to 14 bytes and associated data above 2^33 bytes, which are undefined behaviour. Proved otherwise. |
| C44 | AEGIS is defined for every message length | loop bound `msglen - 15` in unsigned arithmetic, exact condition | partial: The code violates the property: exactly the lengths 1 to 14 run out of the buffers. |
| C45 | AEGIS in place | equal pointers; exact description of what encryption in place computes | partial: The code violates the property for encryption of 16 bytes and more (ciphertext instead of plaintext is absorbed; receivers reject). Proved for decryption. |
| C46 | AEGIS packets are history independent | state is rebuilt from key and IV by every packet | proved |
| C47 | AEGIS portable, x86 and ARM variants agree | round functions of three builds agree | proved: hardware instructions by their manual semantics |
| C48 | DES ECB decryption inverts encryption | `des_*`; bit permutations decided on basis, Feistel network with one round key | partial: The code violates the property (only the first round key of a schedule is used). Proved for keys whose first and last round keys coincide; refuted with a concrete key. des_ecb_encrypt_twice: encryption is its own inverse. |
| C49 | DES is FIPS 46-3 DES | refinement of schedule and block function to FIPS 46-3 networks | partial: The code violates the property. Proved: the block function is the FIPS network with K_1 in every round (bytes of each word reversed), and the stored schedule is the FIPS one; refuted with a concrete key. |
| C50 | DES CTR round trip | packet loop over words | proved: packets of whole blocks; other sizes are C52 |
| C51 | DES CTR keystream blocks come from distinct counters | counter word is incremented but not used | partial: The property is false: every keystream block of a packet is the same. Nothing positive is claimed. |
| C52 | DES packet functions stay inside the packet | unsigned size arithmetic, exact condition | partial: The code violates the property for sizes that are not multiples of 8; the sizes that are safe are characterised exactly. |
| C53 | Joye-Libert decryption inverts encryption | `joye_libert_encrypt/decrypt` over integers; `2^k`-th power residues modulo `p` (Mathlib) | partial: The code violates the property: the coin is only checked to be non-zero, and multiples of p make the message come out as all ones. Exact outcome proved for every coin. |
| C54 | Joye-Libert is additively homomorphic | as C53 for products of ciphertexts | partial: Proved for encryptions coprime to N. The code violates the property for the others, which encryption can produce. |
| C55 | Joye-Libert key generation postconditions | `joye_libert_keygen` as a search; postcondition by inversion | proved: given that the probabilistic primality test is right about the numbers it accepts, and that the search ends |
| C56 | Labeled HE fresh ciphertexts decrypt | `he_encrypt`, `he_decrypt` on top of C53 | partial: Proved if beta is not a multiple of p; the code violates the property otherwise (see C53). Exact outcome proved. |
| C57 | Labeled HE evaluation of linear maps | closure of valid ciphertexts under evaluation | partial: Proved for fresh ciphertexts with beta coprime to N. The code violates the property otherwise. |
| C58 | Labeled HE evaluation of products | as C57 with products | partial: Proved for ciphertexts coprime to N. The code violates the property otherwise. |
| C59 | Labeled HE label values are a function of key and label | label array with arbitrary content; seed of the label value | partial: The code violates the property: label values depend on uninitialised memory and on earlier encryptions. Proved for the first encryption with a label that fills the buffer. |
| C60 | Multi-user labeled HE key transport | `mu_he` key transport of a 128-bit key | partial: Proved for messages of 128 bits and more. The code violates the property for the message sizes its programs use. |
| C61 | Multi-user labeled HE correctness | as C56-C59, C73, C74 for the multi-user code | partial: Proved for ciphertexts coprime to N; the code violates the property otherwise, as for the single-user scheme. |
| C62 | Encrypt-then-MAC example releases plaintext only on a valid tag | receiver of each section; decision logic over the verdict of HMAC | partial: Proved for section 1 (non-empty ciphertexts). The code violates the property in section 2, which decrypts every message and prints Valid tag!. |
| C63 | Poly1305 clamping | `clamp`; bitwise against RFC 7539 | proved: the rest of Poly1305 does not exist in the code |
| C64 | Rabbit runs without undefined behaviour | product of two `long`s; exact bound on the sum; witness computed in the kernel | partial: The property is false: an ordinary call overflows. Proved exactly when a step overflows; which keys lead there is not characterised. |
| C65 | Encrypt-then-MAC example round trip | sender and receiver composed, from C06, C08, C18/C34 | partial: Proved for section 2, and for section 1 with sizes 0 and 1 mod 4. False for the plaintext shipped in section 1 (71 bytes): undefined shift. |
| C66 | Serpent packet function reads and writes size bytes | `serpent_process_packet`, exact sizes | partial: The code violates the property: only sizes 0 and 16 are defined, and 48 bytes are written for 16. |
| C67 | Serpent24 outputs determine the block | each round is invertible (S-boxes by cases, linear map by an inverse) | proved |
| C68 | Sosemanuk IVs do not collide | from C67 | proved |
| C69 | Sosemanuk state does not collapse | `sosemanuk_fsm_update`; witness; injectivity of the specification's step | partial: The code violates the property: states that differ in the upper 31 bits of R1 only are merged by every packet. Proved for the specification's state machine. |
| C70 | Sosemanuk IV load resynchronises | IV load overwrites every field that is used | proved |
| C71 | Joye-Libert modulus has the requested size | sizes of the primes drawn | partial: The code violates the property: the top bits of the primes are not set. Proved if the numbers drawn have their top bit set. |
| C72 | Joye-Libert decryption in place | aliased `mpz_t`; exact result | partial: The code violates the property: the result is always the all-ones message. |
| C73 | Labeled HE decryption may share variables | aliased `mpz_t`; exact result | partial: The code violates the property. Exact outcome proved for both kinds of sharing. |
| C74 | Labeled HE encryption stays inside its label buffer | label copy loop; exact condition | partial: The code violates the property: exactly the labels longer than the message size are written past the end. |
| C75 | Serpent with 32 rounds | `rounds`, `serpent_key_schedule` under `#else`; as C26 with 33 round keys | proved: 32-byte keys; shorter ones are C27 |
| C76 | Serpent with 32 rounds is a permutation | as C67 | proved: one block per call, which is all that is defined (serpent32_packet_ub_iff) |
| C77 | HC-128 states never merge | every table update is undone step by step | proved: packets up to 2^33-8 bytes, as for C19 |
| C78 | HC-128 sessions differ | as C77, through the initialisation and the expansion of key and IV | proved |
| C79 | AES block functions are permutations | S-box by its inverse on all 256 values, MixColumns by its fourth power; the four builds | proved |
| C80 | AES-CTR keystream blocks are distinct | C33, C79 and counter arithmetic | proved |
| C81 | Stream ciphers: truncation | keystream of m bytes is a prefix of that of n bytes | partial: Proved for ChaCha, HC-128, Rabbit and Sosemanuk. AES-CTR violates the property unless m is a multiple of four. |
| C82 | Stream ciphers: transmission errors | from the keystream depending on state and size only | proved: for the packet sizes that are defined (C17, C34) |
| C83 | Hex decoding stays inside its buffers | `hex_decode` on arbitrary characters; out-of-bounds access is undefined behaviour of the model | proved |
| C84 | Byte order helper | `byte_swap` with separate or shared buffers; loop invariant; counterexample for separate buffers | partial: Proved in place, the way the library calls it. Violated for two buffers: the code writes the reversed words through the input pointer and never writes the output. |
| C85 | ChaCha programs | each `main` as a function of the texts it declares, giving the printed lines; uninitialised arrays arbitrary; composes C01, C02, C14 and C15 | proved: Messages below 2^30 bytes; key and nonce texts in upper case (C02). |
| C86 | ChaCha test programs | as C85; the text is related to the RFC state by the words' hexadecimal digits | proved |
| C87 | HC-128 and Sosemanuk programs | as C85; the two uninitialised cipher states are arbitrary and different | proved: Key and IV texts in upper case (C02). |
| C88 | Rabbit program | as C85; general result, the case of equal carry bits (C22), the shipped texts by computation of the carry bit, counterexample with other texts | partial: The first message is always recovered, the second with the shipped texts and whenever the message in between leaves the carry bit as it was. Violated for other texts: loading an IV keeps the carry bit (C22). |
| C89 | Rabbit debug output | the printing loops over the words, with `byte_swap` and `hex_encode`; digits stated by division | proved |
| C90 | SHA-256 program | `main` as a function of the message; negation proved for every message | partial: Violated for every message: the array for the hexadecimal text has 64 bytes and a zero byte is written behind it. No part of the claim holds, so there is no _partial theorem; what the hash function itself returns is C03. |
| C91 | HMAC program | as C85, with C02, C06 and C09; general result and the shipped texts | proved |
| C92 | MD5 program | as C85, with the MD5 digest property | proved |
| C93 | Serpent program | as C85, with conformance of the 24-round Serpent | proved |
| C94 | AES-CFB programs | as C85, one definition for the three builds; recovered exactly for sizes 0 and 1 modulo 4, undefined for the others, shipped text as counterexample | partial: Proved for plaintexts whose size is 0 or 1 modulo 4. Violated for all others (a shift by 32), among them the shipped text of the portable program. |
| C95 | DES program | as C85; result for keys with equal round keys up to byte order, shipped message as counterexample | partial: Proved up to byte order for keys whose round keys coincide, such as the zero key of the program. Violated by the shipped program because of the byte order. |
| C96 | DES counter mode program | as C85; the counter does not change between blocks, so the claim fails for every key | partial: Violated for every key: four equal blocks give four equal blocks of ciphertext. No part of the claim holds for messages of this form. |
| C97 | AES-CTR test program | the loop over the vectors by induction over the list; the shipped vectors by the general result | partial: Proved for vectors whose size is a multiple of 4; the shipped ones are, and are found right in all three builds. Violated for other sizes: exact output for size 1 mod 4 (a wrong last byte), undefined exactly for sizes 2 and 3 mod 4. |
| C98 | AEGIS programs | as C85, for the three builds; exact result for the sizes that work, undefined for the others | partial: Proved for empty plaintexts and those of at least 15 bytes. Violated for 1 to 14 bytes (C44). |
| C99 | AEGIS test programs | as C97 | partial: Proved for vectors with an empty plaintext or one of at least 15 bytes; the shipped four are successful in all builds. Undefined behaviour exactly if there is a vector of another size. |
| C100 | Joye-Libert keys of different users differ | key generation is a function of the sizes and of the state made by `gmp_randinit_mt`; independence of the fuel of the three searches, then equality of keys, decryption with a foreign key, and the common factor | partial: Violated for all sizes: the random state is never seeded, so equal sizes give the same secret key (which then decrypts the messages of other users), and moduli of equal size share the factor q whatever the message size. No part of the claim holds for keys of equal modulus size. |
| C101 | Joye-Libert program | `main` as a function of messages and sizes; the product of two ciphertexts modulo p, in both cases; a random number generator for the counterexample at the shipped sizes | partial: Exact outcome proved: the sum, unless a ciphertext is a multiple of p. Violated for such draws, for which the program as shipped prints 2^64 - 1. |
| C102 | Labeled homomorphic encryption program | `main` as a function of messages, labels and sizes; follows the representation of ciphertexts of C57 and C58 through the run; totality; counterexample at the shipped sizes | partial: Proved if the numbers drawn for encryption are 0 or coprime to N. Violated for other draws (an inverse that does not exist is used). |
| C103 | Joye-Libert decryption of arbitrary numbers | the units modulo p are cyclic and y is not a square, so every unit is a power of y times a 2^k-th power; then as C53, and induction over the expression | proved |
| C104 | AES-CFB error propagation | follows the recursion of CFB decryption (C37) over the blocks before the damage; the next block differs because the cipher is injective (C79) | proved: Stated for whole blocks; for other sizes see C36 and C39. |
| C105 | Labeled HE linear operations in place | `Verif.Model.LHEStore`: the functions as sequences of reads and writes of variables; each is shown equal to the value function, then induction over the program with an invariant relating store and messages | proved |
| C106 | Labeled HE products in place | as C105; the conditions are those under which the value function is computed; counterexamples evaluated | partial: Proved if the result is not an operand. Violated for results written over a factor, over a product of label values, and for a constant that is a member of the result. |
| C107 | Labeled HE encryption with shared variables | as C105; with label value and message in one variable the difference m - b is b - b | partial: Proved if the label value is not written over the message. Violated otherwise: the ciphertext then decrypts to the label value (exact). |
| C108 | AES: table reads independent of the key | `Verif.Model.AESTrace`: the portable functions with a log of the table entries read; erasing the log gives the model; the last words of four consecutive round keys determine the key | partial: Proved that the tables read, their order and number do not depend on the key. Violated for the entries read: those read while a key is loaded (all builds), or while one known block is encrypted (portable build), determine the key. |
| C109 | HMAC validation time independent of the wrong tag | `Verif.Model.TagTrace`: the validation with a count of the comparisons; exact count by induction over the loop; a forger is an adaptive strategy, and the bound holds for one that tries the values of each byte in turn | partial: Exact number proved: it depends on the length of the correct prefix. Violated; a forger that learns the numbers finds the tag of any message with at most 255 n wrong tags. |
| C110 | AEGIS tag comparison does not stop early | `Verif.Model.TagTrace`: the comparison with a count of the words compared | proved |
| C111 | Joye-Libert decryption: operations independent of the message | `Verif.Model.JLTrace`: decryption with the outcomes of its conditions; by induction the result is the number whose digits they are, for any arguments | partial: Proved that the number of conditions tested does not depend on the ciphertext. Violated for their outcomes, which are the binary digits of the decrypted message. |
| C112 | Secret-prefix authentication with a hash | the padded extended message starts with the padded message, so its digest continues from the digest; a forger is any function | partial: Violated for every secret and message, as for every hash of this form: length extension. HMAC (C06) is what the library offers instead. No part of the claim holds. |
| C113 | AES-CTR sessions with different nonces | from C33 and the injectivity of the cipher (C79) | proved: Stated for whole blocks; the builds agree by C32. |
| C114 | AES-CFB sessions with different IVs | induction over the blocks of CFB encryption (C37); different previous blocks give different ciphertext blocks because the cipher is injective | proved |
| C115 | Labeled HE: printed text and secrecy | `Verif.Model.LHEOutput`: encryption with the text it prints; a reader (a function of text and ciphertext) that gives the message in every call, and none that does so without the text | partial: Proved that the text depends on neither the message, the public key nor the random numbers. Violated: the text is the label value, and with the first part of the ciphertext it gives the message in every call. |
| C116 | Joye-Libert: the Jacobi symbol hides the message | y is a nonresidue modulo p and q, so its symbol modulo N is 1; the other factor is an even power | proved |
| C117 | DES: every key bit counts | the permutations of the key schedule are evaluated on bit positions; equal first round keys give the same cipher because it is the only one used | partial: Proved that the parity bits are ignored and that 48 other bits count. Violated for the eight bits 6, 7, 11, 12, 43, 46, 50, 52: all rounds use the first round key (C49). |
| C118 | Encrypt-then-MAC example: the tag covers the IV | section 1: CFB decryption under two IVs differs in the first block exactly, and the tag is computed over the ciphertext only; section 2 from what the receiver prints for any packet (C62) | partial: Proved for section 2 up to coincidences of truncated tags. Violated by section 1 for every pair of IVs: the tag is reported as valid, the first block is wrong. |
| C119 | Labeled HE: a known message does not reveal another | label values are compared from equal HC-128 states; a reader (a function of what it sees) that computes the second message, and two messages with the same view where it has no known one | partial: Violated: the label value is the keystream xor the label, so one known message gives every other from the same keystream state. Proved that different labels have different label values, and that without a known message nothing is revealed by the label value. |
| C120 | DES: encryption is not its own inverse | with one round key, encryption is conjugate to the exchange of the halves in the middle of the rounds; its fixed points are counted by an injection | partial: Violated by every key: all rounds use the first round key, so encrypting twice gives back every message and there are exactly 2^32 blocks that are their own ciphertexts. No part of the property holds. |
| C121 | DES complementation | the permutations commute with complementation, the two complements cancel in the round function; for FIPS 46-3 and, through the refinement of C49, for the code | proved |
| C122 | Joye-Libert: sums look like fresh ciphertexts | multiplication by a unit permutes the numbers from 1 to N - 1; the permuted random number is given explicitly | proved |
| C123 | Stream ciphers: overlapping buffers | `Verif.Model.Overlap`: the packet functions on one array with two offsets; the loops are sequences of byte steps, whose effect is computed by induction for both relative positions; for an output one to three bytes after the input, a byte that the first access writes over has no influence | partial: Proved if the output starts at or before the input or after its end. Violated if it starts four bytes or more after the input and inside it: the message bytes from there on are lost and the array shows the keystream. The _exact theorems say for which offsets every array is encrypted correctly: these, and single words (not with Rabbit). AES for sizes at which it is defined (C33). |
| C124 | AES-CFB: two messages under one key and IV | from C37 and the injectivity of the cipher (C79) | proved |
| C125 | Joye-Libert: message sizes other than that of the key | a key of size k is a key of every smaller size, and a ciphertext of size j is one of every smaller size (with another coin); then C05 | partial: Proved for decryption with at most the size used to encrypt (unless p divides the ciphertext). Violated if decryption uses a larger size than encryption: only the low bits are right. With a size whose power of two does not divide p - 1 the root used by decryption is not defined. |
| C126 | DES: table reads independent of the key | `Verif.Model.DESTrace`: the functions with a record of the table reads; the reads of the first round give the round key, the only one used | partial: Violated: the reads of one block determine the cipher, and those of the key schedule the key up to parity bits. Proved: number and tables of the reads do not depend on the key. |
| C127 | Sosemanuk: table reads independent of the key | `Verif.Model.SosemanukTrace`: the functions with a record of the table reads; each read shows one byte of a word of the linear register, and the recurrence gives the other three | partial: Violated: the reads of a packet of 80 bytes determine 320 of the 384 bits of the state. Proved: number and tables of the reads depend on the size only. |
| C128 | AEGIS: table reads independent of the key | `Verif.Model.AEGISTrace`: the portable code with a record of the reads; the first update reads the entries at all bytes of the five registers, which hold K xor IV and K xor constants | partial: Violated: the first eighty reads determine the key and the IV. Proved: number and tables of the reads depend on the two lengths only. |
| C129 | Labeled HE: products look like fresh ciphertexts | the set of the N - 1 possible results as the random number runs through its values is that of an encryption of m1 m2 - b1 b2, by a bijection of the random numbers (as C122) | partial: Proved for products of two and three factors. Violated by products with a constant: no random number is drawn, and the multiple by zero is always the pair (0, 1). |
| C130 | AES-CFB, AEGIS and DES: overlapping buffers | `Verif.Model.OverlapBlock`: the functions on one array with two offsets; simulation of the functions on separate buffers, with the part of the input not yet read unchanged as invariant | partial: Proved if the output starts after the end of the input or at or before its start (AES-CFB encryption, AEGIS decryption, DES), or at least sixteen bytes before it (AES-CFB decryption, AEGIS encryption, which read the input again after writing; AEGIS with a size of 0 or at least 15). Violated elsewhere, with witnesses. |
| C131 | SHA-256 and HMAC: collisions come from the compression function | the pair of inputs is found by going back from the last block: equal blocks and hash values all the way would make the padded messages equal, and the last blocks differ if the lengths do; stated with the place of the collision, since some collision exists by counting | proved |
| C132 | MD5: different messages have different digests | as C131; the published pair of Wang, Feng, Lai and Yu, evaluated by the kernel, and chaining for the common continuation | partial: Proved: a collision is one of the compression function. Violated: two messages of 128 bytes collide, with every common continuation. |
| C133 | Rabbit: the state does not come back | the counter system as arithmetic on digits with carries (`Proof/RabbitCounter.lean`); a dropped carry leaves its digit at 0, so the same digit is not hit again for 62 rounds; with 63*A = 39 mod 2^256-1 the dropped carries cannot make up for the additions | proved: The bound of 63*2^26 blocks holds for all runs, also those in which the code drops a carry; rabbit_period_clean has the bound 2^256-2 for runs without an exact sum. |
| C134 | Rabbit: different IVs do not lead into the same state | two runs of the counter system backwards: equal results come from equal numbers or from the pattern `Clash` (`Proof/RabbitMerge.lean`) | partial: Except when the counters reach one particular pattern (Clash: each of the counters 1-7 is 0 in one state and all ones in the other, or sums to exactly 2^32 in one and 2^32-1 in the other). Whether a key reaches it is not known. |
| C135 | Rabbit test program shows the key setup of RFC 4503 | `rabbit_load_key` with its DEBUG output and `test_rf.cpp` (`Model/RabbitDebug.lean`); printed states refined to RFC 4503, witness for the sum 2^32 | partial: The code violates the property for keys with a counter sum of exactly 2^32 during key setup; proved for all others, and for the shipped key. |
| C136 | Hex encoder: text and bytes in overlapping buffers | one array with two offsets (`Model/HexOverlap.lean`); the loops element by element; for the offsets that fail, an array of bytes 0xff (text FF...): whatever is read after having been written is something else | partial: Decoding in place works; encoding in place does not. Both theorems say exactly for which offsets the result is right for all contents. |
| C137 | AEGIS: two messages under one key and IV | the specification of AEGIS-128: the keystream does not depend on S0, into which the message goes; one update later S1 differs, since an AES round is injective | proved |
| C138 | Packet functions and the addresses of their buffers | the packet functions again with the addresses of the buffers and a check at each word access (`Model/Align.lean`); loop by loop the checks pass for aligned buffers, and the first one fails otherwise; for AES-CFB the eleven tail lengths one by one | partial: Violated by AES-CFB: with aligned buffers it reads misaligned words whenever the incomplete last block has more than four bytes; align_cfb_partial says exactly when it is defined. |
| C139 | Initialising an object again | the initialisation functions again as assignments to the elements of an arbitrary old object, with arbitrary local arrays (`Model/Reinit.lean`); equal to the initialised state of the other models, which are functions of key and IV | proved |
| C140 | AES-CFB: the incomplete last block | the loop over whole blocks leaves the last sixteen bytes of register and ciphertext (induction); the switch over the remaining length case by case; a packet with a wrong register is computed from the state for each remaining length | partial: False for the code. `aes_cfb_tail_exact` says which byte of the encrypted register is used for which byte, `aes_cfb_tail_standard_iff` when this agrees with the leading bytes, `aes_cfb_tail_refuted` is a packet for which it does not. `aes_cfb_carry_partial` is the register after whole blocks and after a remainder of four bytes in the x86 build, `aes_cfb_carry_portable` the exact register for this remainder in the other builds; for every other size and state `aes_cfb_carry_refuted` gives a packet with a wrong register. |
| C141 | Packets of size zero | evaluation of the packet functions of the models at size zero with arbitrary buffers, and induction over the packets of a session for any packet function with this property | partial: Holds for all ciphers but Sosemanuk, for which `sosemanuk_empty_partial` says what happens and `sosemanuk_empty_refuted` is a session in which it matters. |
| C142 | DES: equal blocks and different nonces | the block function of the code is its own inverse, so injective; the packets block by block | partial: The part on electronic codebook mode holds. Counter mode: `des_ctr_nonces_partial` for nonces that differ in the first two words, `des_ctr_pad_reused` what happens otherwise, `des_ctr_nonces_refuted` that the third word does not count. |
| C143 | HC-128: table reads independent of the key | `Verif.Model.HC128Trace`: the functions with a record of the table reads; the reads of a step determine and are determined by two bytes of the word at distance twelve; the refutations evaluate the initialisation for two keys | partial: False for the code. `hc128_reads_partial`: the number of reads depends on the size only, and the places depend on the state exactly through two bytes of one word per step; `hc128_init_reads_partial` gives the reads of the initialisation exactly, and `hc128_init_reads_leak` that they show two bytes of the first 500 entries of both tables; the two refutations are keys for which the reads of the initialisation and of a packet differ. |
| C144 | AEGIS-128: a packet belongs to one key | the AES round is onto, so five state updates with chosen blocks lead from every state to every state; the tag and the ciphertext depend on the key only through the state after the associated data | partial: False for the code (and for AEGIS-128 itself). `aegis_second_key` is the second key for every packet, `aegis_commitment_refuted` the negation; `aegis_commitment_partial`: one message per ciphertext under one key, IV and associated data. |
| C145 | Results do not depend on the byte order of the machine | `Verif.Model.BigEndian`: the functions that go from bytes to words and back, with the other byte order; reading and writing words in the other order is reversing the words of the keystream, so the theorems on the little-endian model apply; the refutation evaluates one packet; `Verif.Model.BigEndianBlocks`: the same for AES-CTR and Sosemanuk | partial: False for the code. The first five theorems say exactly what the functions compute on a big-endian machine; `byte_order_refuted` is a ChaCha packet for which the two machines disagree; `byte_order_partial`: two big-endian machines understand each other. AES-CTR and Sosemanuk (32-byte keys) on a big-endian machine; `byte_order_sessions_partial`: sessions of HC-128, Sosemanuk and AES-CTR between two big-endian machines. |
| C146 | SHA-256, HMAC and MD5: the result over the message | `Verif.Model.InPlace`: the functions on one array with two places in it; the message is copied or consumed before the result is written, so the result is that of the model with separate buffers | proved |
| C147 | Asymmetric functions: nothing of key, message or random numbers stays in memory | `Verif.Model.GmpLeft`: the functions with the list of the variables they initialise and do not clear, with the last values; counts by cases, and the guess check is decryption of a ciphertext with coin 1 | partial: False for the code. `gmp_left_count` and `gmp_left_unbounded` say exactly how much stays, `gmp_left_keygen` to `gmp_left_he_encrypt` what it tells; `gmp_left_refuted` is the negation, `gmp_left_partial` the two functions that leave nothing. |
| C148 | Cipher objects: a stolen object does not open recorded packets | no new model: the programs of the attacker are definitions of `Verif.Props.Stolen` (steps of HC-128 backwards, the AES key schedule backwards, the Rabbit master state), proved to undo the models of the code by induction over the session | partial: False for the code, for all sessions: explicit programs compute the messages or the key from the object and the packets (`unsteps`, `rewind`, `recover`, `restart`, `unroll`). `stolen_partial`: after another initialisation the object is independent of what it did before. |
| C149 | AEGIS-128: a packet in one array | `Verif.Model.AEGISArray`: the packet functions with five pointers into one array, in the order of reads and writes of the code; reduced to C130 with copies of the parts that are only read, then C42 and C43 | partial: `array_encrypt_partial` and `array_decrypt_partial` give the whole array after the call, with IV, associated data and tag anywhere. Missing: messages of 1 to 14 bytes (undefined, C44) and message and ciphertext that overlap in the ways excluded in C130; `array_refuted` has a packet encrypted in place. |
| C150 | Symmetric functions: nothing of key or message stays in the heap | `Verif.Model.HeapLeft`: the functions that use `new`, with the contents of the blocks at `delete`; the programs of the attacker (`stateOf`, exclusive or) are definitions or part of the statements; C06, C08 and C14 for the rest; for Sosemanuk a matrix (`Verif.Proof.SosemanukLinearData`) that is checked to be the inverse on the 320 states with one bit, and linearity | partial: False for the code. `hmac_left` to `sosemanuk_left_lfsr` say what is in the blocks and what it is good for, `heap_left_refuted` is the negation, `aegis_left_partial` the module for which it holds. |
| C151 | Sosemanuk: conditions independent of the key | `Verif.Model.SosemanukBranch`: the generator with a record of the outcomes of the condition in `mux`; induction over the blocks as in C127 | partial: False for the code: `sosemanuk_branch_log` and `sosemanuk_branch_second` say what the outcomes tell, `sosemanuk_branch_refuted` is the negation; `sosemanuk_branch_partial`: the number of outcomes depends on the size only. |
| C152 | HC-128: sessions of short packets | `Verif.Model.HC128`: induction over the packets of a session; a step at position zero reads and writes only one word that changes, so the words are `H ^ (A + t * G)` | partial: False for the code: `hc128_short_packets` gives the keystream of all sessions of packets of one to four bytes, `hc128_short_known` what a known packet opens, `hc128_short_last` is for packets of two or three words, `hc128_short_refuted` is the negation. `hc128_short_partial` says exactly which packets share their keystream word. |
| C153 | Labeled HE: sessions with short messages | `Verif.Model.LabeledHE`, `Verif.Model.MuLabeledHE`: sessions as a relation over single encryptions (`Session`), the keystream words of C152, and arithmetic modulo `2 ^ j` | partial: False for the code: `lhe_short_reveals` and `mulhe_short_reveals` for all sessions, with the computation `guess`; `lhe_short_refuted` is the negation for the parity. `lhe_short_hides_partial`: without a known message every value of the lowest word of every message is possible. |
| C154 | HC-128: sessions of packets of ordinary size | `Verif.Model.HC128`: the words of `P` from position 500 on and all of `Q` stay as they are, so the masks and two of three summands of the first words are constants of the session (induction over the packets); bit 0 of a sum is an exclusive or. The partial by the continuation lemma of C20 and `Spec.HC128` | partial: False for the code: `hc128_packets_predict` gives the relation between consecutive packets, `hc128_packets_known` the bits known packets open, with the computation `attack`; `hc128_packets_refuted` is the negation. `hc128_packets_partial`: sessions of packets of multiples of 4096 bytes use the stream of the specification. Missing: what sizes above 2000 that are no such multiple reveal. |
| C155 | Rabbit: no two keys are equivalent | `Verif.Model.Rabbit`: the counter system run backwards as for C134; the key appears twice in the counters, half a word apart, which excludes the pattern in which counters meet (arithmetic, `omega`), except before the first update for one pair of keys; that pair by evaluation | proved: `rabbit_key_counters` says exactly which keys have the same counters after the set-up, `rabbit_keys_apart` that no two keys have the same state. |
| C156 | Sosemanuk: no two keys are equivalent | `Verif.Model.Sosemanuk` over `Verif.Model.Serpent`: the injectivity of the schedule (C27) and the fact that a session reads nothing of the object but the round keys | partial: False for the code: `sosemanuk_equivalent_keys` gives the partner of every short key, `sosemanuk_keys_refuted` is the negation; `sosemanuk_keys_exact` characterises all equivalent pairs and `sosemanuk_keys_partial` is the part that holds. |
| C157 | Stack use does not grow with the message | `Verif.Model.Stack`: each function with the bytes of the stack that are left; a call whose arrays do not fit is `exhausted`, a third outcome beside a result and undefined behaviour. The results come from C04, C06 and C08, the sizes from arithmetic on the padding | partial: False for the code: `stack_refuted` for every size of the stack up to 1 GiB, `stack_8MiB` for the usual one. The other theorems give the exact need of each function; `stack_partial` is the part that holds. Counted are arrays and structures, not what a compiler adds. |
| C158 | HMAC: no two keys are equivalent | `Verif.Model.HMAC`: `hmac_load_key` gives the key of RFC 2104 (C10); lists that agree after padding with zeros to 64 bytes differ in zeros at the end | partial: False for the code (and for RFC 2104): `hmac_equivalent_keys`, `hmac_keys_refuted`. `hmac_keys_exact` says which keys leave the same object, `hmac_keys_partial` is the part that holds. That different objects give different tags for some message is not proved. |
| C159 | Joye-Libert: the public key hides its factors for every message size | `Verif.Model.JoyeLibert`: the loop that searches p keeps p = 1 (mod 2^k) (C55), so N = q (mod 2^k); the meeting lists by Fermat's theorem modulo p, since N - q = (p - 1) q | partial: False for the code: `jl_public_key_opens` for every key with q below 2^k, `jl_public_refuted` is the negation. `jl_public_low_bits`, `jl_public_candidates` and `jl_public_meet` say what every public key reveals, `jl_public_partial` that the division fails for larger q. That nothing faster exists cannot be expressed. |
| C160 | AES-CTR, Rabbit and Sosemanuk: key and IV can be loaded in either order | `Verif.Model.Reinit`, `Verif.Model.Sosemanuk`, `Verif.Model.AES`: the Rabbit key setup overwrites the whole object (C139); the packet function of Sosemanuk does not read the round keys, by induction over blocks and packets; AES-CTR by C139 | partial: False for the code of Rabbit and Sosemanuk (`load_order_rabbit_refuted`, `load_order_sosemanuk_refuted`); `rabbit_iv_first`, `sosemanuk_key_no_effect` and `sosemanuk_iv_first` say what happens for all inputs. `load_order_partial` is the part that holds: AES-CTR. |
| C161 | DES: chosen messages do not help to find the key | `Verif.Model.DES`: sixteen equal rounds commute with one round; 2^16 blocks with one half fixed and 2^16 with the other contain two that are one round apart, whatever the round function gives; the S-box tables are inverted over their 64 entries, and the four bits each contributes do not meet those of the others | partial: False for the code: `des_slide` for every key, with the computation `attack`; `des_slide_relation` is the relation it uses. `des_slide_partial` and `mem_keysOf` say which round keys one value of the round function leaves. How many pairs of blocks match by chance is not bounded. |
| C162 | Joye-Libert: key generation and encryption end | `Verif.Model.JoyeLibert`: the fuel of the searches is chosen from the number they look for; the search for q by Dirichlet's theorem on primes in progressions (Mathlib), the existence of y by the Chinese remainder theorem; minimality by induction over the iterations | partial: False for the code with messages of 0 bits (`jl_keygen_never_ends`, `jl_keygen_ends_refuted`). `jl_keygen_exact` says for all draws when key generation ends and with which key; `jl_keygen_q_ends` and `jl_encrypt_ends` are the loops that always end. `jl_keygen_ends_partial` assumes a suitable prime exists from the draw on, which for k > 0 is an open conjecture. |
| C163 | Joye-Libert: a build with DEBUG | `Verif.Model.JLDebug`: key generation and encryption with the text printed under `DEBUG`; the reader parses the text, by C55 the numbers are not negative; the check by C53 | partial: False for the code: `jl_debug_opens` and `jl_debug_checks` for all keys and messages, with the computations `readP` and `checks`. `jl_debug_erase` is the part that holds, `jl_debug_text` the exact text of key generation. AES-CTR has `DEBUG` code too, but it calls a function that does not exist. |
| C164 | AES: the six-round build | `Verif.Model.AESFlags`: the flags choose the block function; six rounds with a choice of round keys are specified over the transformations of FIPS 197; the rounds are lifted as for C31, the modes by induction over blocks and packets for any block function | partial: False for the code across builds (`reduced_interoperate_refuted`, `reduced_ctr_refuted`, for both instruction sets; `reduced_mixed_block` says what is seen instead) and for the usual six-round AES (`reduced_first_six_refuted`). `reduced_block` and `reduced_ignored` are exact for all keys and blocks. The sizes left out are those where the modes are wrong without the flag too (C33, C36). |
| C165 | Joye-Libert and labeled HE: having other ciphertexts decrypted does not open one | on the decryption functions: the receiver is a function that refuses the ciphertext modulo N, the attacker one that is given that function and the public values; the product with y as for C103, in the group modulo p | partial: False for the code, for every key: the attackers `attackY`, `attackN`, `attackL` and `attackM` see the public values, the ciphertext and one answer of a receiver that refuses it. For Joye-Libert ciphertexts that p divides `jl_chosen_ciphertext` says nothing; decryption gives 2^k - 1 for all of them. |
| C166 | Joye-Libert and labeled HE: encryptions from one state of the random number generator | on the functions for encryption, over any generator: what is drawn is a function of the state, so two ciphertexts have one random factor, which cancels; that a search finds one message only is C53; label values are below 2^k by the way they are imported | partial: False for the code, for every key and generator. The computations `guess`, `compare` and `guessL` search through the 2^k messages. Where p divides a ciphertext they say nothing, since then decryption fails too (C53). That two runs start from one state is `Env.init`, what gmp_randinit_mt gives. |
