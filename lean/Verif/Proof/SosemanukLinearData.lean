import Verif.Basic.Bytes

/-!
# Inverse of the map from the linear register of Sosemanuk to every fourth word

The columns of a matrix of 320 x 320 bits, used in `Verif.Proof.SosemanukLinear`, where it is checked.  Column `32 * k + j` belongs to bit
`j` of the `k`-th of the ten words.
-/

namespace CT.Sosemanuk

/-- Columns 0 to 31. -/
def invCols0 : List (BitVec 320) :=
  [0xd3b733042f8db797000000009e0d171a3d65d148416bdc4a000000018fdfdede644e49eda6c228a0,
   0xfc766085eb3c78700000000951a2e347aca0b9082d6119400000002b7171515c89c9273e52d50e9,
   0x1e27cc10bccf27a70000000083345c68f43d1689ad05228100000004c72e2a2a39918de6635aa07b,
   0x3c4e3120d1374ee700000000af68b8d0417a2cbbf30a44ab00000008275c5454728bb365c6b4e9f6,
   0x789c62400b6e9c6700000000f7d0d90982f458df4f1488ff000000104eb8a8a8e4bfcfca25c17b45,
   0xf091c48016dc91ce0000000047091b12ad41b0179e28b957000000209cd9f9f961d7373d4a2bf68a,
   0x498b21a92c118b35000000008e123624f382c92e9550dbae00000040911b5b5bc2076e7a945645bd,
   0x92bf42fb5822bf6a00000000b5246c484fad3b5c83a01ff5000000808b36b6b62d0edcf481ac8ad3,
   0x4f2721a4c0f8ff7a00000000ef7206fc49ee06c5a28dc18c00000100d6c31c76a467e5483b6a5366,
   0x9e4e42e1295957f40000000077e40c5192750c23edb32bb100000200052f38ece1ce639076d4a6cc,
   0x959c846b52b2ae4100000000ee6118a28dea184673cf56cb000004000a5e70716b35c689ec01e531,
   0x8391a1d6a4cdf5820000000075c230edb37d308ce637ac3f0000080014bce0e2d66a25bb71026362,
   0xaf8beb05e13343ad00000000ea2d6073cffa60b1656ef17e0000100028d1696d05d44adfe204c6c4,
   0xf7bf7f0a6b6686f3000000007d5ac0e6375dc0cbcadc4bfc00002000500bd2da0a0194176d082521,
   0x47d7fe14d6cca54f00000000fab429656eba293f3d11965100004000a0160d1d1402812eda104a42,
   0x8e0755280531e39e000000005dc152cadcdd527e7a2285a200008000e92c1a3a2804ab5c1d209484,
   0x56c7aa7e8004b6080000000047b2587222f09214a204112a000100000c10f2fbf5308c40fb7c71af,
   0xac27fdfca908c510000000008ecdb0e444498d28ed0822540002000018204d5f4360b1805ff8e2f7,
   0xf14e5351fb10232000000000b533c9618892b350731044a80004000030409abe86c0cba9be596d47,
   0x4b9ca6a25f20464000000000c3663bc2b98dcfa0e62088f90008000060809dd5a5293ffbd5b2da8e,
   0x9691e5edbe408c80000000002fcc762ddbb337e96540b95b00100000c0a99303e3527e5f03cd1db5,
   0x858b6373d580b1a9000000005e31ec5a1fcf6e7bca80dbb60020000029fb8f066fa4fcbe06333ac3,
   0xa3bfc6e603a9cbfb00000000bc6271b43e37dcf63da91fc500400000525fb70cdee151d50c66742f,
   0xefd7256506fb3f5f00000000d1c4e2c17c6e11457afb3e2300800000a4bec718156ba20318cce85e,
   0x5893726c5483809700000000c619a0e68f6201bd2bd4b72a01000000c3d249d461ef1e5595a574a7,
   0xb08fe4d8a8afa987000000002532e965b7c402d35601c754020000002f0d9201c2773caa83e3e8e7,
   0xc9b76119f9f7fba7000000004a647bcac721040fac0227a8040000005e1a8d022dee78fdaf6f7967,
   0x3bc7c2325b475fe70000000094c8f63d2742081ef1044ef908000000bc34b3045a75f053f7def2ce,
   0x76272d64b68ebe67000000008139457a4e84103c4b089c5b10000000d168cf08b4ea49a647154d35,
   0xec4e5ac8c5b5d5ce00000000ab728af49ca12078961091b6200000000bd03710c17d92e58e2a9a6a,
   0x719cb43923c3033500000000ffe4bd4191eb40f085208bc54000000016096e202bfa8d63b5549dd4,
   0xe291c172462f066a000000005761d3828b7f8049a340bf23800000002c12dc40565db3c6c3a89301]

/-- Columns 32 to 63. -/
def invCols1 : List (BitVec 320) :=
  [0x3d65d148416bdc4a000000018fdfdede644e49eda6c228a000000000eb63c749c7091b32bddf6200,
   0x7aca0b9082d6119400000002b7171515c89c9273e52d50e9000000007fc6279227123664d317c400,
   0xf43d1689ad05228100000004c72e2a2a39918de6635aa07b00000000fe254e8d4e246cc80f2e2100,
   0x417a2cbbf30a44ab00000008275c5454728bb365c6b4e9f600000000554a9cb39c48d8391e5c4200,
   0x82f458df4f1488ff000000104eb8a8a8e4bfcfca25c17b4500000000aa9491cf919019723cb88400,
   0xad41b0179e28b957000000209cd9f9f961d7373d4a2bf68a00000000fd818b378b8932e478d9a100,
   0xf382c92e9550dbae00000040911b5b5bc2076e7a945645bd0000000053abbf6ebfbb6461f01beb00,
   0x4fad3b5c83a01ff5000000808b36b6b62d0edcf481ac8ad300000000a6ffd7dcd7dfc8c249367f00,
   0x49ee06c5a28dc18c00000100d6c31c76a467e5483b6a53660000000080f4833e2d6f6871a368c652,
   0x92750c23edb32bb100000200052f38ece1ce639076d4a6cc00000000a941af7c5aded0e2efd025a4,
   0x8dea184673cf56cb000004000a5e70716b35c689ec01e53100000000fb82f7f8b415096d77094ae1,
   0xb37d308ce637ac3f0000080014bce0e2d66a25bb71026362000000005fad4759c12a12daee12946b,
   0xcffa60b1656ef17e0000100028d1696d05d44adfe204c6c400000000bef38eb22b54241d752481d6,
   0x375dc0cbcadc4bfc00002000500bd2da0a0194176d08252100000000d54fb5cd56a8483aea48ab05,
   0x6eba293f3d11965100004000a0160d1d1402812eda104a4200000000039ec333acf990747d90ff0a,
   0xdcdd527e7a2285a200008000e92c1a3a2804ab5c1d2094840000000006952f66f15b89e8fa895714,
   0x22f09214a204112a000100000c10f2fbf5308c40fb7c71af00000000a4b6b69749b02e5ca69c0039,
   0x44498d28ed0822540002000018204d5f4360b1805ff8e2f700000000e1c5c58792c95cb8e5910072,
   0x8892b350731044a80004000030409abe86c0cba9be596d47000000006b2323a78d3bb8d9638b00e4,
   0xb98dcfa0e62088f90008000060809dd5a5293ffbd5b2da8e00000000d64646e7b376d91bc6bf0061,
   0xdbb337e96540b95b00100000c0a99303e3527e5f03cd1db500000000058c8c67cfec1b3625d700c2,
   0x1fcf6e7bca80dbb60020000029fb8f066fa4fcbe06333ac3000000000ab1b1ce3771366c4a07002d,
   0x3e37dcf63da91fc500400000525fb70cdee151d50c66742f0000000014cbcb356ee26cd8940e005a,
   0x7c6e11457afb3e2300800000a4bec718156ba20318cce85e00000000283f3f6adc6dd819811c00b4,
   0x8f6201bd2bd4b72a01000000c3d249d461ef1e5595a574a700000000246353407cd80b146542ca66,
   0xb7c402d35601c754020000002f0d9201c2773caa83e3e8e70000000048c6a680f8191628ca843dcc,
   0xc721040fac0227a8040000005e1a8d022dee78fdaf6f7967000000009025e5a959322c503da17a31,
   0x2742081ef1044ef908000000bc34b3045a75f053f7def2ce00000000894a63fbb26458a07aebf462,
   0x4e84103c4b089c5b10000000d168cf08b4ea49a647154d3500000000bb94c65fcdc8b0e9f47f41c4,
   0x9ca12078961091b6200000000bd03710c17d92e58e2a9a6a00000000df8125be3339c97b41fe8221,
   0x91eb40f085208bc54000000016096e202bfa8d63b5549dd40000000017ab4ad566723bf68255ad42,
   0x8b7f8049a340bf23800000002c12dc40565db3c6c3a89301000000002eff9403cce47645adaaf384]

/-- Columns 64 to 95. -/
def invCols2 : List (BitVec 320) :=
  [0x644e49eda6c228a000000000eb63c749c7091b32bddf6200000000007bb3eae722f092145343b03a,
   0xc89c9273e52d50e9000000007fc6279227123664d317c40000000000f6cf7d6744498d28a686c974,
   0x39918de6635aa07b00000000fe254e8d4e246cc80f2e2100000000004537face8892b350e5a53be8,
   0x728bb365c6b4e9f600000000554a9cb39c48d8391e5c4200000000008a6e5d35b98dcfa063e37679,
   0xe4bfcfca25c17b4500000000aa9491cf919019723cb8840000000000bddcba6adbb337e9c66fecf2,
   0x61d7373d4a2bf68a00000000fd818b378b8932e478d9a10000000000d311ddd41fcf6e7b25de714d,
   0xc2076e7a945645bd0000000053abbf6ebfbb6461f01beb00000000000f2213013e37dcf64a15e29a,
   0x2d0edcf481ac8ad300000000a6ffd7dcd7dfc8c249367f00000000001e4426027c6e1145942a6d9d,
   0xa467e5483b6a53660000000080f4833e2d6f6871a368c652000000000a0bb4308f6201bdeb919733,
   0xe1ce639076d4a6cc00000000a941af7c5aded0e2efd025a4000000001416c160b7c402d37f8b8766,
   0x6b35c689ec01e53100000000fb82f7f8b415096d77094ae100000000282c2bc0c721040ffebfa7cc,
   0xd66a25bb71026362000000005fad4759c12a12daee12946b00000000505856292742081e55d7e731,
   0x5d44adfe204c6c400000000bef38eb22b54241d752481d600000000a0b0ac524e84103caa076762,
   0xa0194176d08252100000000d54fb5cd56a8483aea48ab0500000000e9c9f1a49ca12078fd0ecec4,
   0x1402812eda104a4200000000039ec333acf990747d90ff0a000000007b3b4be191eb40f0531c3521,
   0x2804ab5c1d2094840000000006952f66f15b89e8fa89571400000000f676966b8b7f8049a6386a42,
   0xf5308c40fb7c71af00000000a4b6b69749b02e5ca69c0039000000006584dbbe6b1c7f7672a4f93e,
   0x4360b1805ff8e2f700000000e1c5c58792c95cb8e591007200000000caa11fd5d638feece4e15b7c,
   0x86c0cba9be596d47000000006b2323a78d3bb8d9638b00e4000000003deb3e0305705571616bb6f8,
   0xa5293ffbd5b2da8e00000000d64646e7b376d91bc6bf0061000000007a7f7c060ae0aae2c2d6c559,
   0xe3527e5f03cd1db500000000058c8c67cfec1b3625d700c200000000f4fef80c1469fd6d2d0523b2,
   0x6fa4fcbe06333ac3000000000ab1b1ce3771366c4a07002d000000004155591828d253da5a0a46cd,
   0xdee151d50c66742f0000000014cbcb356ee26cd8940e005a0000000082aab230500da61db4148c33,
   0x156ba20318cce85e00000000283f3f6adc6dd819811c00b400000000adfdcd60a01ae53ac128b166,
   0x61ef1e5595a574a700000000246353407cd80b146542ca66000000008f6a795baf7934a9f9207ebb,
   0xc2773caa83e3e8e70000000048c6a680f8191628ca843dcc00000000b7d4f2b6f7f268fb5b40fcdf,
   0x2dee78fdaf6f7967000000009025e5a959322c503da17a3100000000c7014dc5474dd05fb6805117,
   0x5a75f053f7def2ce00000000894a63fbb26458a07aebf4620000000027029a238e9a09bec5a9a22e,
   0xb4ea49a647154d3500000000bb94c65fcdc8b0e9f47f41c4000000004e049d46b59d12d523fbed5c,
   0xc17d92e58e2a9a6a00000000df8125be3339c97b41fe8221000000009c08938cc3932403465f73b8,
   0x2bfa8d63b5549dd40000000017ab4ad566723bf68255ad420000000091108fb12f8f48068cbee6d9,
   0x565db3c6c3a89301000000002eff9403cce47645adaaf384000000008b20b7cb5eb7900cb1d5651b]

/-- Columns 96 to 127. -/
def invCols3 : List (BitVec 320) :=
  [0x7437386aee9cd23a000000007cf942ddd7c11e54606a9c9c000000009f0822b041cd69de450780ec,
   0xe86e70d475910d7400000000f85b8413072b3ca8c0d4919100000000971044c98233d2158a0ea971,
   0x79dce001ea8b1ae80000000059b6a1260e5678f929018b8b000000008720883bad660d2abd1cfbe2,
   0xf21169027dbf347900000000b2c5eb4c1cacf05b5202bfbf00000000a740b976f3cc1a54d3385f6d,
   0x4d22d204fad768f200000000cd237f9838f149b6a404d7d700000000e780dbec4f3134a80f70beda,
   0x9a440d085d07d04d000000003346fe99704b92c5e10807070000000067a91f719e6268f91ee0d51d,
   0x9d881a10ba0e099a00000000668c559be0968d236b100e0e00000000cefb3ee295c4d05b3c69033a,
   0x93b93420dd1c129d00000000ccb1aa9f6985b346d6201c1c00000000355f7c6d832109b678d20674,
   0xd7f173d148f95161000000001c2c1849ef8d1fe85635fa04000000000bd863ef0438558c185609c0,
   0x74be60b905ba2c2000000003858309277b33e79ac6a5d08000000001619c6770870aab130ac1229,
   0xe96651689b6ed2d0000000070b0608deecf7cf2f1d4ba10000000002c3225ee10e0fdcb60f12452,
   0x1c85ca2cbbc5735a00000000e0c9c0b37537f84d4b01dd200000000058644a752069533fc04b48a4,
   0x38a33d58df23e6b400000000693b29cfea6e599a9602134000000000b0c894ea40d2a67e299690e1,
   0x70ef7ab0174665c100000000d27652377ddcb29d8504268000000000c939817d800de5fc5285896b,
   0xe077f4c92e8cca2b000000000deca46efa11cd93a3084ca9000000003b72abfaa91a6351a4a3bbd6,
   0x69ee413b5cb13d56000000001a71e1dc5d22338fef1098fb0000000076e4ff5dfb34c6a2e1efdf05,
   0xdfe09ae8d438f90700000000f5dfea4db8ab4c72aac3086c0000000057cccbadeed2e24c59490d01,
   0x17699d7901705b0e0000000043177d9ad9ff98e4fd2f10d800000000ae313ff3750d6d98b2921a02,
   0x2ed293f202e0b61c00000000862efa9d1b579961535e201900000000f5627e4fea1ada99cd8d3404,
   0x5c0d8f4d0469c53800000000a55c5d9336ae9bc2a6bc40320000000043c4fc9e7d341d9b33b36808,
   0xb81ab79a08d2237000000000e3b8ba8f6cf59f2de5d180640000000086215195fa683a9f66cfd010,
   0xd934c79d100d46e0000000006fd9ddb7d843975a630ba9c800000000a542a2835dd07497cc370920,
   0x1b682793201a8c6900000000de1b13c7198687b4c616fb3900000000e384edafba09e887316e1240,
   0x36d04e8f4034b1d2000000001536262732a5a7c1252c5f72000000006fa173f7dd1279a762dc2480,
   0xcbae7f709c62b4dd000000008e891355e05e150de96a2db200000000b26d6e7f06c927618f1c478d,
   0x3ff5fee091c4c11300000000b5bb26aa69bc2a1a7bd45acd00000000cddadcfe0c3b4ec2b7388eb3,
   0x7e4355698b212b2600000000c3df4cfdd2d15434f601b43300000000331d115518769c2dc770b5cf,
   0xfc86aad2bf42564c000000002f1798530d0ba8684502c16600000000663a22aa30ec915a27e0c337,
   0x51a5fd0dd784ac98000000005e2e99a61a16f9d08a042bcc00000000cc7444fd60718bb44e692f6e,
   0xa2e3531a07a1f19900000000bc5c9be5342c5b09bd0856310000000031e88853c0e2bfc19cd25edc,
   0xed6fa6340eeb4b9b00000000d1b89f636858b612d310ac62000000006279b9a6296dd72b910dbc11,
   0x73dee5681c7f969f000000000bd997c6d0b0c5240f20f1c400000000c4f2dbe552da07568b1ad122]

/-- Columns 128 to 159. -/
def invCols4 : List (BitVec 320) :=
  [0xd7c11e54606a9c9c000000009f0822b041cd69de450780ec00000000b9b8e5ecdfe09ae83951807c,
   0x72b3ca8c0d4919100000000971044c98233d2158a0ea97100000000dbd9637117699d7972a2a9f8,
   0xe5678f929018b8b000000008720883bad660d2abd1cfbe2000000001f1bc6e22ed293f2e4edfb59,
   0x1cacf05b5202bfbf00000000a740b976f3cc1a54d3385f6d000000003e36256d5c0d8f4d61735fb2,
   0x38f149b6a404d7d700000000e780dbec4f3134a80f70beda000000007c6c4adab81ab79ac2e6becd,
   0x704b92c5e10807070000000067a91f719e6268f91ee0d51d00000000f8d8941dd934c79d2d65d533,
   0xe0968d236b100e0e00000000cefb3ee295c4d05b3c69033a000000005919813a1b6827935aca0366,
   0x6985b346d6201c1c00000000355f7c6d832109b678d2067400000000b232ab7436d04e8fb43d06cc,
   0xef8d1fe85635fa04000000000bd863ef0438558c185609c0000000001268441ecbae7f70ab385c89,
   0x77b33e79ac6a5d08000000001619c6770870aab130ac12290000000024d0883c3ff5fee0ff70b8bb,
   0xeecf7cf2f1d4ba10000000002c3225ee10e0fdcb60f12452000000004809b9787e43556957e0d9df,
   0x7537f84d4b01dd200000000058644a752069533fc04b48a4000000009012dbf0fc86aad2ae691b17,
   0xea6e599a9602134000000000b0c894ea40d2a67e299690e10000000089241f4951a5fd0df5d2362e,
   0x7ddcb29d8504268000000000c939817d800de5fc5285896b00000000bb483e92a2e3531a430d6c5c,
   0xfa11cd93a3084ca9000000003b72abfaa91a6351a4a3bbd600000000df907c8ded6fa634861ad8b8,
   0x5d22338fef1098fb0000000076e4ff5dfb34c6a2e1efdf05000000001789f8b373dee568a53419d9,
   0xb8ab4c72aac3086c0000000057cccbadeed2e24c59490d0100000000093438bf592b98a5f3a107a1,
   0xd9ff98e4fd2f10d800000000ae313ff3750d6d98b2921a0200000000126870d7b25699e34feb0eeb,
   0x1b579961535e201900000000f5627e4fea1ada99cd8d34040000000024d0e007cdac9b6f9e7f1c7f,
   0x36ae9bc2a6bc40320000000043c4fc9e7d341d9b33b36808000000004809690e33f19fde95fe38fe,
   0x6cf59f2de5d180640000000086215195fa683a9f66cfd010000000009012d21c664b971583557055,
   0xd843975a630ba9c800000000a542a2835dd07497cc3709200000000089240d38cc96872aafaae0aa,
   0x198687b4c616fb3900000000e384edafba09e887316e124000000000bb481a703185a754f7fd69fd,
   0x32a5a7c1252c5f72000000006fa173f7dd1279a762dc248000000000df9034e062a3e7a84753d253,
   0xe05e150de96a2db200000000b26d6e7f06c927618f1c478d00000000d000ac8bed89e38d4d74a63f,
   0x69bc2a1a7bd45acd00000000cddadcfe0c3b4ec2b7388eb3000000000900f1bf73bb6fb39ae8e57e,
   0xd2d15434f601b43300000000331d115518769c2dc770b5cf0000000012004bd7e6dfdecf9d7963fc,
   0xd0ba8684502c16600000000663a22aa30ec915a27e0c33700000000240096076517153793f2c651,
   0x1a16f9d08a042bcc00000000cc7444fd60718bb44e692f6e000000004800850eca2e2a6e8f4d25a2,
   0x342c5b09bd0856310000000031e88853c0e2bfc19cd25edc000000009000a31c3d5c54dcb79a4aed,
   0x6858b612d310ac62000000006279b9a6296dd72b910dbc11000000008900ef387ab8a811c79d9473,
   0xd0b0c5240f20f1c400000000c4f2dbe552da07568b1ad12200000000bb007770f4d9f922279381e6]

/-- Columns 160 to 191. -/
def invCols5 : List (BitVec 320) :=
  [0x41cd69de450780ec00000000b9b8e5ecdfe09ae83951807c000000001c6e5c4cb8ab4c72665f7c74,
   0x8233d2158a0ea97100000000dbd9637117699d7972a2a9f80000000038dcb898d9ff98e4ccbef8e8,
   0xad660d2abd1cfbe2000000001f1bc6e22ed293f2e4edfb59000000007011d9991b57996131d55979,
   0xf3cc1a54d3385f6d000000003e36256d5c0d8f4d61735fb200000000e0221b9b36ae9bc26203b2f2,
   0x4f3134a80f70beda000000007c6c4adab81ab79ac2e6becd000000006944369f6cf59f2dc406cd4d,
   0x9e6268f91ee0d51d00000000f8d8941dd934c79d2d65d53300000000d2886c97d843975a210c339a,
   0x95c4d05b3c69033a000000005919813a1b6827935aca0366000000000db9d887198687b44218669d,
   0x832109b678d2067400000000b232ab7436d04e8fb43d06cc000000001adb19a732a5a7c18430cc93,
   0x438558c185609c0000000001268441ecbae7f70ab385c8900000000b79bef4de05e150ddec54b6e,
   0x870aab130ac12290000000024d0883c3ff5fee0ff70b8bb00000000c79f779a69bc2a1a152396dc,
   0x10e0fdcb60f12452000000004809b9787e43556957e0d9df000000002797ee9dd2d154342a468511,
   0x2069533fc04b48a4000000009012dbf0fc86aad2ae691b17000000004e8775930d0ba868548ca322,
   0x40d2a67e299690e10000000089241f4951a5fd0df5d2362e000000009ca7ea8f1a16f9d0a8b1ef44,
   0x800de5fc5285896b00000000bb483e92a2e3531a430d6c5c0000000091e77db7342c5b09f9cb7788,
   0xa91a6351a4a3bbd600000000df907c8ded6fa634861ad8b8000000008b67fac76858b6125b3feeb9,
   0xfb34c6a2e1efdf05000000001789f8b373dee568a53419d900000000bfce5d27d0b0c524b67e75db,
   0xeed2e24c59490d0100000000093438bf592b98a5f3a107a10000000089d560ec3289e3930fe03663,
   0x750d6d98b2921a0200000000126870d7b25699e34feb0eeb00000000bb03c07164bb6f8f1e696cc6,
   0xea1ada99cd8d34040000000024d0e007cdac9b6f9e7f1c7f00000000df0629e2c8dfdeb73cd2d825,
   0x7d341d9b33b36808000000004809690e33f19fde95fe38fe00000000170c526d391715c7780d194a,
   0xfa683a9f66cfd010000000009012d21c664b971583557055000000002e18a4da722e2a27f01a3294,
   0x5dd07497cc3709200000000089240d38cc96872aafaae0aa000000005c30e11de45c544e49346481,
   0xba09e887316e124000000000bb481a703185a754f7fd69fd00000000b8606b3a61b8a89c9268c8ab,
   0xdd1279a762dc248000000000df9034e062a3e7a84753d25300000000d9c0d674c2d9f9918dd039ff,
   0x6c927618f1c478d00000000d000ac8bed89e38d4d74a63f00000000616d771cfcf49724b91e29e1,
   0xc3b4ec2b7388eb3000000000900f1bf73bb6fb39ae8e57e00000000c2daee3851418748db3c526b,
   0x18769c2dc770b5cf0000000012004bd7e6dfdecf9d7963fc000000002d1d7570a282a7901f78a4d6,
   0x30ec915a27e0c33700000000240096076517153793f2c651000000005a3aeae0edade7893ef0e105,
   0x60718bb44e692f6e000000004800850eca2e2a6e8f4d25a200000000b4747d6973f367bb7c496b0a,
   0xc0e2bfc19cd25edc000000009000a31c3d5c54dcb79a4aed00000000c1e8fad2e64fcedff892d614,
   0x296dd72b910dbc11000000008900ef387ab8a811c79d9473000000002b795d0d659e3517598d0528,
   0x52da07568b1ad12200000000bb007770f4d9f922279381e60000000056f2ba1aca956a2eb2b30a50]

/-- Columns 192 to 223. -/
def invCols6 : List (BitVec 320) :=
  [0xdfe09ae83951807c000000001c6e5c4cb8ab4c72665f7c7400000000609623f9eed2e24c605af119,
   0x17699d7972a2a9f80000000038dcb898d9ff98e4ccbef8e800000000c085465b750d6d98c0b44b32,
   0x2ed293f2e4edfb59000000007011d9991b57996131d559790000000029a38cb6ea1ada9929c19664,
   0x5c0d8f4d61735fb200000000e0221b9b36ae9bc26203b2f20000000052efb1c57d341d9b522b85c8,
   0xb81ab79ac2e6becd000000006944369f6cf59f2dc406cd4d00000000a477cb23fa683a9fa456a339,
   0xd934c79d2d65d53300000000d2886c97d843975a210c339a00000000e1ee3f465dd07497e1acef72,
   0x1b6827935aca0366000000000db9d887198687b44218669d000000006b757e8cba09e8876bf177e4,
   0x36d04e8fb43d06cc000000001adb19a732a5a7c18430cc9300000000d6eafcb1dd1279a7d64bee61,
   0xcbae7f70ab385c8900000000b79bef4de05e150ddec54b6e00000000aa8a9f0406c9276166587f04,
   0x3ff5fee0ff70b8bb00000000c79f779a69bc2a1a152396dc00000000fdbd97080c3b4ec2ccb0fe08,
   0x7e43556957e0d9df000000002797ee9dd2d154342a4685110000000053d3871018769c2d31c95510,
   0xfc86aad2ae691b17000000004e8775930d0ba868548ca32200000000a60fa72030ec915a623baa20,
   0x51a5fd0df5d2362e000000009ca7ea8f1a16f9d0a8b1ef4400000000e51ee74060718bb4c476fd40,
   0xa2e3531a430d6c5c0000000091e77db7342c5b09f9cb778800000000633c6780c0e2bfc121ec5380,
   0xed6fa634861ad8b8000000008b67fac76858b6125b3feeb900000000c678cea9296dd72b4271a6a9,
   0x73dee568a53419d900000000bfce5d27d0b0c524b67e75db0000000025f035fb52da075684e2e5fb,
   0x592b98a5f3a107a10000000089d560ec3289e3930fe0366300000000a0fd45b27437386ad9c63b6e,
   0xb25699e34feb0eeb00000000bb03c07164bb6f8f1e696cc600000000e9538acde86e70d41b2576dc,
   0xcdac9b6f9e7f1c7f00000000df0629e2c8dfdeb73cd2d825000000007ba6bd3379dce001364aec11,
   0x33f19fde95fe38fe00000000170c526d391715c7780d194a00000000f6e5d366f21169026c947122,
   0x664b971583557055000000002e18a4da722e2a27f01a32940000000045630fcc4d22d204d881e244,
   0xcc96872aafaae0aa000000005c30e11de45c544e49346481000000008ac61e319a440d0819ab6d88,
   0x3185a754f7fd69fd00000000b8606b3a61b8a89c9268c8ab00000000bd253c629d881a1032ffdab9,
   0x62a3e7a84753d25300000000d9c0d674c2d9f9918dd039ff00000000d34a78c493b9342064571ddb,
   0xed89e38d4d74a63f00000000616d771cfcf49724b91e29e100000000b917180cd7f173d1501fa01a,
   0x73bb6fb39ae8e57e00000000c2daee3851418748db3c526b00000000db2e3018074be60ba03ee934,
   0xe6dfdecf9d7963fc000000002d1d7570a282a7901f78a4d6000000001f5c60300e966516e97c7b68,
   0x6517153793f2c651000000005a3aeae0edade7893ef0e105000000003eb8c0601c85ca2c7bf8f6d0,
   0xca2e2a6e8f4d25a200000000b4747d6973f367bb7c496b0a000000007cd929c038a33d58f6594509,
   0x3d5c54dcb79a4aed00000000c1e8fad2e64fcedff892d61400000000f81b522970ef7ab045b28a12,
   0x7ab8a811c79d9473000000002b795d0d659e3517598d0528000000005936a452e077f4c98acdbd24,
   0xf4d9f922279381e60000000056f2ba1aca956a2eb2b30a5000000000b26ce1a469ee413bbd33d348]

/-- Columns 224 to 255. -/
def invCols7 : List (BitVec 320) :=
  [0xb8ab4c72665f7c7400000000609623f9eed2e24c605af119000000003e9b5e63592b98a4eb47f6da,
   0xd9ff98e4ccbef8e800000000c085465b750d6d98c0b44b32000000007c9fbcc6b25699e17f8e451d,
   0x1b57996131d559790000000029a38cb6ea1ada9929c1966400000000f897d125cdac9b6bfeb58a3a,
   0x36ae9bc26203b2f20000000052efb1c57d341d9b522b85c80000000059870b4a33f19fd655c3bd74,
   0x6cf59f2dc406cd4d00000000a477cb23fa683a9fa456a33900000000b2a71694664b9705aa2fd3e8,
   0xd843975a210c339a00000000e1ee3f465dd07497e1acef7200000000cde72c81cc96870afd5e0f79,
   0x198687b44218669d000000006b757e8cba09e8876bf177e400000000336758ab3185a71453bc1ef2,
   0x32a5a7c18430cc9300000000d6eafcb1dd1279a7d64bee610000000066ceb0ff62a3e728a6d13c4d,
   0xe05e150ddec54b6e00000000aa8a9f0406c9276166587f04000000003d69d5f0ed89e28da4c5103e,
   0x69bc2a1a152396dc00000000fdbd97080c3b4ec2ccb0fe08000000007ad2034973bb6db3e123207c,
   0xd2d154342a4685110000000053d3871018769c2d31c9551000000000f40d0692e6dfdacf6b4640f8,
   0xd0ba868548ca32200000000a60fa72030ec915a623baa2000000000411a0c8d65171d37d68c8059,
   0x1a16f9d0a8b1ef4400000000e51ee74060718bb4c476fd4000000000823418b3ca2e3a6e05b1a9b2,
   0x342c5b09f9cb778800000000633c6780c0e2bfc121ec538000000000ad6830cf3d5c74dc0acbfbcd,
   0x6858b6125b3feeb900000000c678cea9296dd72b4271a6a900000000f3d060377ab8e811143f5f33,
   0xd0b0c524b67e75db0000000025f035fb52da075684e2e5fb000000004f09c06ef4d97922287ebe66,
   0x3289e3930fe0366300000000a0fd45b27437386ad9c63b6e0000000045eabec5d7c11e5457c5fa40,
   0x64bb6f8f1e696cc600000000e9538acde86e70d41b2576dc000000008a7dd523072b3ca8ae235d80,
   0xc8dfdeb73cd2d825000000007ba6bd3379dce001364aec1100000000bdfa03460e5678f9f546baa9,
   0x391715c7780d194a00000000f6e5d366f21169026c94712200000000d35d068c1cacf05b438cddfb,
   0x722e2a27f01a32940000000045630fcc4d22d204d881e244000000000fba0cb138f149b686b1135f,
   0xe45c544e49346481000000008ac61e319a440d0819ab6d88000000001edd18cb704b92c5a5cb26be,
   0x61b8a89c9268c8ab00000000bd253c629d881a1032ffdab9000000003c13303fe0968d23e33f4cd5,
   0xc2d9f9918dd039ff00000000d34a78c493b9342064571ddb000000007826607e6985b3466f7e9803,
   0xfcf49724b91e29e100000000b917180cd7f173d1501fa01a00000000f56820c0ef8d1fe8bb5c837f,
   0x51418748db3c526b00000000db2e3018074be60ba03ee9340000000043d0402977b33e79dfb8affe,
   0xa282a7901f78a4d6000000001f5c60300e966516e97c7b680000000086098052eecf7cf217d9f755,
   0xedade7893ef0e105000000003eb8c0601c85ca2c7bf8f6d000000000a512a9a47537f84d2e1b47aa,
   0x73f367bb7c496b0a000000007cd929c038a33d58f659450900000000e324fbe1ea6e599a5c368efd,
   0xe64fcedff892d61400000000f81b522970ef7ab045b28a12000000006f485f6b7ddcb29db86cb553,
   0x659e3517598d0528000000005936a452e077f4c98acdbd2400000000de90bed6fa11cd93d9d8c3a6,
   0xca956a2eb2b30a5000000000b26ce1a469ee413bbd33d348000000001589d5055d22338f1b192fe5]

/-- Columns 256 to 287. -/
def invCols8 : List (BitVec 320) :=
  [0xeed2e24c605af119000000003e9b5e63592b98a4eb47f6da000000009ddd93a73289e392e2894f18,
   0x750d6d98c0b44b32000000007c9fbcc6b25699e17f8e451d0000000093138fe764bb6f8d6dbb9e30,
   0xea1ada9929c1966400000000f897d125cdac9b6bfeb58a3a000000008f26b767c8dfdeb3dadf9560,
   0x7d341d9b522b85c80000000059870b4a33f19fd655c3bd7400000000b74cc7ce391715cf1d1783c0,
   0xfa683a9fa456a33900000000b2a71694664b9705aa2fd3e800000000c7982735722e2a373a2eaf29,
   0x5dd07497e1acef7200000000cde72c81cc96870afd5e0f790000000027994e6ae45c546e745cf752,
   0xba09e8876bf177e400000000336758ab3185a71453bc1ef2000000004e9b9cd461b8a8dce8b847a4,
   0xdd1279a7d64bee610000000066ceb0ff62a3e728a6d13c4d000000009c9f9101c2d9f91179d98ee1,
   0x6c9276166587f04000000003d69d5f0ed89e28da4c5103e00000000b5fe43c9fcf496248e44c1b5,
   0xc3b4ec2ccb0fe08000000007ad2034973bb6db3e123207c00000000c355863b51418548b5882bc3,
   0x18769c2d31c9551000000000f40d0692e6dfdacf6b4640f8000000002faaa576a282a390c3b9562f,
   0x30ec915a623baa2000000000411a0c8d65171d37d68c8059000000005efde3ecedadef892fdbac5e,
   0x60718bb4c476fd4000000000823418b3ca2e3a6e05b1a9b200000000bc536f7173f377bb5e1ff1bc,
   0xc0e2bfc121ec538000000000ad6830cf3d5c74dc0acbfbcd00000000d1a6dee2e64feedfbc3e4bd1,
   0x296dd72b4271a6a900000000f3d060377ab8e811143f5f33000000000be5156d659e7517d17c960b,
   0x52da075684e2e5fb000000004f09c06ef4d97922287ebe660000000016632adaca95ea2e0bf88516,
   0x7437386ad9c63b6e0000000045eabec5d7c11e5457c5fa400000000087eed3ca41cd69deac43b865,
   0xe86e70d41b2576dc000000008a7dd523072b3ca8ae235d8000000000a7750f3d8233d215f186d9ca,
   0x79dce001364aec1100000000bdfa03460e5678f9f546baa900000000e7ea1e7aad660d2a4ba51b3d,
   0xf21169026c94712200000000d35d068c1cacf05b438cddfb00000000677d3cf4f3cc1a5496e3367a,
   0x4d22d204d881e244000000000fba0cb138f149b686b1135f00000000cefa78414f3134a8856f6cf4,
   0x9a440d0819ab6d88000000001edd18cb704b92c5a5cb26be00000000355df0829e6268f9a3ded841,
   0x9d881a1032ffdab9000000003c13303fe0968d23e33f4cd5000000006aba49ad95c4d05bef151982,
   0x93b9342064571ddb000000007826607e6985b3466f7e980300000000d4dd92f3832109b6772a32ad,
   0xd7f173d1501fa01a00000000f56820c0ef8d1fe8bb5c837f00000000e269d4ee0438558cd4ca7dd8,
   0x74be60ba03ee9340000000043d0402977b33e79dfb8affe000000006dd201750870aab1013dfa19,
   0xe966516e97c7b680000000086098052eecf7cf217d9f75500000000da0d02ea10e0fdcb027a5d32,
   0x1c85ca2c7bf8f6d000000000a512a9a47537f84d2e1b47aa000000001d1a047d2069533f04f4ba64,
   0x38a33d58f659450900000000e324fbe1ea6e599a5c368efd000000003a3408fa40d2a67e0841ddc8,
   0x70ef7ab045b28a12000000006f485f6b7ddcb29db86cb553000000007468105d800de5fc10821339,
   0xe077f4c98acdbd2400000000de90bed6fa11cd93d9d8c3a600000000e8d020baa91a635120ad2672,
   0x69ee413bbd33d348000000001589d5055d22338f1b192fe500000000790940ddfb34c6a240f34ce4]

/-- Columns 288 to 319. -/
def invCols9 : List (BitVec 320) :=
  [0x3d65d148497aa15b000000009f2852b4644e49eca23d57810000000002f5c11356c7aa7e40b41899,
   0x7aca0b9092f4ebb6000000009750a4c1c89c9271ed7aaeab0000000004432b26ac27fdfc80c1309b,
   0xf43d16898d417fc50000000087a0e12b39918de273f4f5ff000000000886564cf14e5351a92b609f,
   0x417a2cbbb382fe2300000000a7e96b56728bb36de64143570000000010a5ac984b9ca6a2fb56c097,
   0x82f458dfcfad554600000000e77bd6ace4bfcfda658286ae0000000020e3f1999691e5ed5fac2987,
   0xad41b01737f3aa8c0000000067f605f161d7371dcaada5f500000000406f4b9b858b6373bef152a7,
   0xf382c92e6e4ffdb100000000ce450a4bc2076e3a3df3e3430000000080de969fa3bfc6e6d54ba4e7,
   0x4fad3b5cdc9e53cb00000000358a14962d0edc747a4f6f8600000000a9158597efd725650396e167,
   0x49ee06c5b6570c14000000002ba867efa467e44812921c2a000000009e5624265893726c9cd6dd9f,
   0x92750c23c5ae18280000000056f9ce77e1ce6190248d38540000000095ac484cb08fe4d891051397,
   0x8dea184623f5305000000000ac5b35ee6b35c28948b370a80000000083f19098c9b761198b0a2687,
   0xb37d308c464360a000000000f1b66a75d66a2dbb90cfe0f900000000af4b89993bc7c232bf144ca7,
   0xcffa60b18c86c0e9000000004bc5d4ea05d45adf8937695b00000000f796bb9b76272d64d72898e7,
   0x375dc0cbb1a5297b000000009623017d0a01b417bb6ed2b6000000004785df9fec4e5ac807509967,
   0x6eba293fcbe352f600000000854602fa1402c12edfdc0dc5000000008ea31797719cb4390ea09bce,
   0xdcdd527e3f6fa44500000000a38c045d28042b5c17111a2300000000b5ef2e87e291c1721ce99f35,
   0x22f09214a4a9f6ff0000000033afe936f5318c40f36c0cbf00000000b4413afcb4fce59e5f2fb4da,
   0x44498d28e1fb45570000000066f77b6c4362b1804fd818d700000000c1827451c1516395be5ec11d,
   0x8892b3506b5f8aae00000000cc47f6d886c4cba99e193007000000002bade8a22ba2c683d5bc2b3a,
   0xb98dcfa0d6bebdf500000000318e4519a5213ffb9532600e0000000056f379ed56ed25af03d15674,
   0xdbb337e905d5d3430000000062b58a32e3427e5f8364c01c00000000ac4ff273ac734af7060bace8,
   0x1fcf6e7b0a030f8600000000c4c3bd646f84fcbeafc8293800000000f19e4de6f1e694470c16f179,
   0x3e37dcf614061ea500000000212fd3c8dea151d5f7395270000000004b959a654b65818e182c4bf2,
   0x7c6e1145280c3ce300000000425e0f3915eba2034772a4e00000000096839dca96caabb53058964d,
   0x8f6201bd3b233b40000000003b61fd3760ef1e55807fb83f00000000d90829d964d74bd954b5c5e7,
   0xb7c402d3764676800000000076c2536ec0773caaa9fed97e000000001b10521bc807961ba8c32367,
   0xc721040fec8ceca900000000ec2da6dc29ee78fdfb551bfc000000003620a436390e8536f92f46ce,
   0x2742081e71b171fb00000000715ae5115275f0535faa3651000000006c40e16c721ca36c5b5e8c35,
   0x4e84103ce2cbe25f00000000e2b46322a4ea49a6befd6ca200000000d8806bd8e438efd8b6bcb16a,
   0x9ca120786d3f6dbe000000006dc1c644e17d92e5d553d8ed0000000019a9d61961707719c5d1cbd4,
   0x91eb40f0da7edad500000000da2b25886bfa8d6303a619730000000032fb0532c2e0ee32230b3f01,
   0x8b7f80491dfc1d03000000001d564ab9d65db3c606e532e600000000645f0a642d69756446167e02]

end CT.Sosemanuk
