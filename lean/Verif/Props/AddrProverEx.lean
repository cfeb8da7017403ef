import Verif.Lemmas.KeccakEval
import Verif.Props.ProverEx
import Verif.Props.AddrProver

/-!
The hypotheses of C100 can be met: the key, signature and circuit of `Props/ProverEx`, and a tree whose only leaf is the address of
the key.  The states of the Keccak rounds are checked by the kernel.
-/

set_option exponentiation.threshold 2000
set_option maxRecDepth 100000

namespace Spartan.Example
open Spec MParams Lib Circuit Spec.Keccak

/-- The lanes after each round for the key. -/
def keyTrace : List (List ℕ) :=
  [[0xe1748f2d7ef3f408, 0xf2d57423de8f1b8c, 0xc51cfdb78afb0284, 0xcb701a8540aa86b7,
    0xbec0d28b7ba8ecc2, 0x4098e15e9d8e6952, 0x5961e196a60cd4c4, 0x2e5be81afa694713,
    0x0000000000000001, 0x0000000000000000, 0x0000000000000000, 0x0000000000000000,
    0x0000000000000000, 0x0000000000000000, 0x0000000000000000, 0x0000000000000000,
    0x8000000000000000, 0x0000000000000000, 0x0000000000000000, 0x0000000000000000,
    0x0000000000000000, 0x0000000000000000, 0x0000000000000000, 0x0000000000000000,
    0x0000000000000000],
   [0xaacd5bc6715883d1, 0x5d4bc2f13819fa55, 0x96992c6ec805dde6, 0x1f35ae3b120edc86,
    0x65baa1b465039a2f, 0xe5311bae40987ab0, 0x44a855fbc8bcaac4, 0xd86fcf1fe2614a93,
    0x6a9abf44486402e8, 0xb5a2f0067f1a5848, 0x3f63e42db9a09bb2, 0x4b1249c6bf714f2c,
    0x300f8f01ad6e2946, 0xa0ae228661181ad8, 0x271623fd8f0ae2a3, 0xc6ebce876dfb14ab,
    0x225ae8e8921381d3, 0x8b94a619fedcd4c9, 0x1d36f4ed6122de89, 0x2286f6b8298748cc,
    0x7e0617c61ceb6029, 0x5febc74b5e5323da, 0xa9d711e05c672983, 0x5cf6a6914778e33d,
    0xdc4074bc4864d813],
   [0xe595c1f68680e825, 0x47e6751369fe94b2, 0x5abfb8166ecf94a5, 0x7a75ee4f384b0b1b,
    0x79ee1be37a122111, 0x1cb35f3e94416f5b, 0x9a8107097a8e5876, 0x149711da4b6a8ecd,
    0x2a2b41e7a55e6510, 0xf5eaa470f62e5ce2, 0x489891ae12c8d7ec, 0x295a7a12a9012db3,
    0x2558187b8fbf8a2b, 0xebfd35c35f8b3de6, 0xb62cf2da4469ad2f, 0x86521a78fb72d591,
    0x3c2b3fb36700d1a8, 0x660e9c248d7d14a8, 0xce7a21ecbdb897ba, 0x421ad99e8b0b2aea,
    0xc41fc6934cec0435, 0xd736e8e069621d1c, 0xdb1b854529daf070, 0x01b973a309c8072d,
    0xa8302d379004d7e4],
   [0x03de44257f555c4a, 0x65656c7988568c4a, 0x0988e6d58f938a13, 0x543672b728d7134f,
    0xe0831a2bc5becfeb, 0x8b04234650605a54, 0x35dff6dbed4436e4, 0x7656e6c5c5a58f85,
    0xbf350e62677309a8, 0xd16585f34114afe0, 0x11d5ea449615f823, 0xc98713d6e3c9bab8,
    0xabee5a64b03f3bff, 0xad1a81b6ccc8add5, 0xcb11ce41e08cafeb, 0xeb3ed300a74102ef,
    0x93cab2af61cc86b4, 0x9984ddaf9136c8d1, 0x0993ec59dc9dc271, 0x03b6d957bca54538,
    0x6b47a5d3c8081fee, 0x1e6fa70d5a36a7a5, 0xf40e3d15d9cb72d8, 0x96019e1063fa5500,
    0x3411ab0b3e3b7477],
   [0x65bd364f6beb72eb, 0x6cd596e9a68b65ee, 0x96b1f0cb8ad51575, 0x209937526ae99100,
    0xfcb2aa08e09332d9, 0x09d7a787453accff, 0xd30522ddbd337a77, 0xaff781a2977d2435,
    0xa8ac3f3c23f892dd, 0xd8782fb27b1ea26b, 0x9feb4e09a6a8cfe7, 0x66d815c40c188274,
    0xc92ad86b55003ceb, 0xd0a1100c0f23c08c, 0x9efd420a8d2d3c8a, 0x50fba14f815b2f15,
    0x642e6d5626fb1bed, 0x0257ec22245176a6, 0xef9c8a0c54eb9f16, 0xb6b15573231cefc4,
    0xcba13115fafa3ae4, 0x1e9603f7178ceb7f, 0xaaa4c9913b926038, 0x5d7dc41aefb2daf3,
    0xd1fea37ba7dd7079],
   [0xffc2940434b88b52, 0x6b81f0a277436c27, 0x40edeaf20f6cdccb, 0x1ca4784855053f7c,
    0x5a8f4feb8cf03e8d, 0x21150e52ee2e69c9, 0xef36ab7ec9faf0a8, 0x7d1848dff3bb34e9,
    0x8930bd2b8778c2f6, 0x95bdc5493d625233, 0xfae29148d72efa04, 0x497ca6925cd168f6,
    0x90d991bf6c3d9f9d, 0x70df301976a35d80, 0x7924924546284610, 0x0fdee6e70d3bf93e,
    0xa9935071bcf881db, 0xf93ef7470bc473dc, 0xd58d3de88f7bba9e, 0x6dbf0a33ea5c1b67,
    0x7262f8ce54f0d950, 0x7121a36d3e3022c3, 0xef781d7ab547e089, 0xc9be7f5111a9b3bd,
    0x1c4c55190002c4f8],
   [0x1610fcd5671ed360, 0xfb3acc42a0ad583c, 0xa4d95f328a838bc4, 0x7b6390336aec258d,
    0x122524b807cdf99d, 0xe5ae521f02d0406f, 0x8e5b58590d0fed76, 0xdeae5e0c5c69c78c,
    0x9a1fa0d3fc4314cb, 0x6b5ea715793261a7, 0xd17ea990edc7b20e, 0x211bdaa164cf76c5,
    0x52ce27a41a84af1c, 0xd4b712fc4382ae27, 0xaa9e633b0a863936, 0xb0f01b6336c5269a,
    0x63eb2102f93555f0, 0xb4b7fd508267493c, 0x4b494eacabf42959, 0x3cfe3ea5a424589c,
    0x29d84741a6f3e676, 0x21de5a319f3165e7, 0x21ff6989ef07b676, 0x3f4cf90c97cf2dc1,
    0x6ff29c24d34b479d],
   [0x3a7647c95b5b88d0, 0xdb6a6c240c6e2933, 0x2481b63865abb10e, 0x88044fb8138ee54b,
    0x6ed222ac83cfb359, 0x4498f45c8c7603f6, 0x541a15eb9b9d7068, 0xee4dae26b017139a,
    0xb9dc446c8febb446, 0x9787af4c2249ba4b, 0x56aaa7eff18c0391, 0x1f04976942406f90,
    0x3acb471ef4ff28fc, 0xa67dea5c4d11bf4a, 0x3007f4daf76eeebf, 0xa4714dd6db099e3f,
    0x41119224d994b187, 0x479678b593acbbc9, 0xd3a47f915eaa0080, 0x9583ffef65a6cdcd,
    0x1ce25074bdf1d82a, 0x675c5a7a5169742c, 0x70b01b4c502a0be0, 0x08fd0e79a7d5cdf6,
    0xe44499305646d0cf],
   [0x7eda75dc8ccf22be, 0x6ca49bf9579881c6, 0x3e5fc08e522b75cd, 0xfc4fcf99f78ca155,
    0x869cbf9fe9bee305, 0xa192a26463e0a664, 0x28d8ef30cffead52, 0x18e5afdf7366eba8,
    0x51656bf1cc014b88, 0x03a60ebe8bb15ece, 0x177fb05fbb7b6fe7, 0x625e32a245bab618,
    0xd64a0af2a920edd6, 0x53060fc11c1bbfd9, 0x69858e335193a004, 0xa0d7ba7f20188509,
    0x06733de907db54bc, 0x87253b1b07dcc506, 0x3e07c71a2775b022, 0xf69eb78d4d6d6196,
    0x41f8680c1a14c101, 0xbc0369e2abd79dbd, 0x2d086ca8f87bbd1b, 0x39d4e6e1242b470b,
    0x4b232ae4f7282689],
   [0x19fcf7effeb76ff7, 0x117bdb6766700f97, 0x4f97879b0a429482, 0x3ab01182459c9cb2,
    0x52e48bd477fbb8b9, 0xebb7c2d1304d6af6, 0xf5553cd21d11a60e, 0xf68dbb230810d47a,
    0xbcb1f3ea1dc39a44, 0xbc1491479095d151, 0xecdc149a8aa8d33d, 0xc22c7766d9775e90,
    0xe679c6034c779cd0, 0x1056e3be181d8359, 0xa8ff83f4b27fadfb, 0x4a8679fb495310fc,
    0x95f63e32a2027df4, 0xf28c5b01de39c442, 0x36e1afa4f842f442, 0x94d08e9484401ef9,
    0xe05690f3be391882, 0xc1855a9c491c34fa, 0xf52841a92db3b394, 0x96899510f0eb8012,
    0x8186af54a928b328],
   [0xaa46e77034ff3a13, 0xfbcdaf39d65d9f55, 0x46400fcf8aa171ed, 0xf132a5e387525a95,
    0xc1e2e9e57c943289, 0xb8bc184e884c5d85, 0x9342b0fd026f2207, 0xda568e5b1e2ea70b,
    0xfe01540b46976d4c, 0xba2718d35c1fbf8f, 0xef47269b18330857, 0x008a48bcabe1e3f0,
    0xc433d1b262f418d4, 0x496209339255838a, 0x0231116016f93f1b, 0x6b630bee1b66321d,
    0xce57f096cc586c8d, 0x91df4840427cbba7, 0xfe5f01d95c9ff746, 0xe87c0d058d24be38,
    0xb4b6010290b3d2d0, 0x1b2b43b103eb4771, 0x73c548ff223857df, 0xb24860fac8524f0a,
    0x1a342aef4ee6f832],
   [0x6a2deb59119f2651, 0xca99f454c862710e, 0x73ece6ae22b5f6e1, 0xdd2cb014256843aa,
    0xc1f171c076ad052c, 0xbfe1c94b27d7f348, 0x7f3ecd92c8ca4304, 0x7b456c266998f1f9,
    0x70425b0d341e994e, 0xbb5a257afb944f55, 0x5cffb8146824e8b8, 0xa0b6144c3d16acde,
    0xb7da0698fe8949ed, 0xa881c79458a897bf, 0x9804524724fb05a0, 0x5f00190754fb2fbe,
    0x5cd016a4dc736cd4, 0x50e31a0f3835a5da, 0xdfd72f530f293e25, 0xefdb2c4f91b55cc4,
    0x78fb3a3a6f1cc627, 0xbce0c2d5fd953ecb, 0x97320e2e501525e6, 0x67505f2434151f1e,
    0xb0f446e993831371],
   [0x17ab6d3448eaa7b8, 0xd0ba623530c7a7e1, 0xaae67bc0eb74a83a, 0xdf569cde04b92505,
    0xda19c89681dc1447, 0x6a71511ce6e2ef01, 0x9b6ae63894b1ba76, 0xdaf1144bdf0bac39,
    0x0c4fc0703b37495e, 0x161c4fc42534360d, 0x2a8c7a8b7386724b, 0x2f09496c01b1ecfc,
    0xb1f8b8f660366fee, 0x0a22c93040189406, 0x935cf1017f49b056, 0xc02a9689b898d36e,
    0x48268b6e0a4d426a, 0xec10c1857183c3ac, 0x4d1a64d491e86da3, 0x0760db29a09b55d0,
    0xff4761184cea3c7e, 0xd735f20c44de292a, 0x07f1fc9876eeedce, 0x0f6ecb99f58f75b7,
    0x8d8dbe310d48dc86],
   [0x342807f94bf3146a, 0x5a0dee765c0da3a1, 0x700aa3b54308edcc, 0x004fc32b1f088795,
    0x33e1395425ced0bd, 0x8bff9959f7092db2, 0x55a41347dd14c24e, 0x9d2c2f193ae2ccf0,
    0x2131dec05d7391bf, 0xad54e521bd4fe4af, 0xddb28fc16ee5fa31, 0xb97575a06d35f501,
    0xacaf91ca7597a89b, 0xc8ab91e3a17edf6f, 0x4916c0c4cc9775dc, 0x926cd8c646410cc9,
    0x639c0546cd00b5a6, 0x113c723d35884f48, 0x0250f4625c0b1023, 0xcc1e0907ee48ee02,
    0x1955c7f17de47ca2, 0x2546968646c97bbd, 0x88fbf5d71a748e50, 0x965847c4578baa90,
    0x8e4c4ffd2fabdc46],
   [0xc1716e289ce2f281, 0xc109b8c132909eba, 0xd0b914389daf765b, 0x4feae617f0fead9a,
    0xd53595d0b02d4d7a, 0x012122835d2ffe52, 0x72a80df504c02f6e, 0x627f8971f6c3808d,
    0x13fd67cb2ded14e5, 0x5260bb4775536765, 0x56d980f16d4907a2, 0xae3ac17733d48a65,
    0x7512b1cbc9730dff, 0x78b324c4bc98f17b, 0x0c62da6ce919cae7, 0xb8e0f42263b48052,
    0xd96efd8e280f574a, 0xe15e8f4631089387, 0x8b88c3b1d9888d92, 0x796bfd745f54bb0d,
    0xeffd20ed6d28b7d5, 0x46ec0ef46fa2901f, 0xb1ba31d3b974c2fa, 0xf17451037f50ce0c,
    0xf21ef933a1476d0b],
   [0x4600f2eec20cad31, 0xecb999f5d61668b1, 0x433572ddda513066, 0x5beaf00f8f43b392,
    0x8f9f819816cfc9da, 0x96e7c65ba7d3fdf7, 0xdecf650371284a5b, 0xc543a8dd5def008f,
    0x81e7a25379262388, 0x19ea5a37be97652d, 0x1d9d28d4ac5be562, 0x3e0396de831ba557,
    0x34602e4c67dc88bc, 0x1e8af51c3fdd3b6c, 0x588cab37f08bbc26, 0x86ee50fc42c2059d,
    0x30835a93c52ec228, 0x3b95b2346e58f907, 0xba0d4e1bbc29cb69, 0x9467c72278fc1b49,
    0xe29877759d6663f6, 0xa440a71b70c03b23, 0xbd3c486ecc8c57b5, 0x7d1efd78321dde0b,
    0xa026c9342766710b],
   [0x39c5b735c652ab04, 0xc96ba14bd50e5631, 0x7cd0c7553e8d57e0, 0xa77a21a431fc7ad2,
    0xe8b1d3e0ca0c684a, 0x7e34fd5d2da140b4, 0xd9c963a5e1ec6c6b, 0x9213883d546214c7,
    0x5fa71f1a0e0afadc, 0xe41d5e53d80f4ce6, 0x51354d439a0b2768, 0x7445ced2ef40c497,
    0x3cadd555d99eaf3c, 0xaab1c9133b97ca85, 0x3caa6477d5602522, 0x9de85ec282b49da2,
    0x30eeb091f3a9f94c, 0x8fd0a94b5f5f72c1, 0x96a93ec5f14c5407, 0xebbb711b23775975,
    0xb47831caf144aeb3, 0x3c241432da9885e0, 0x2398d7e10855724c, 0x1c24369a0702aefa,
    0x90ca075f82a915c9],
   [0xa0ac7f8855d90ebc, 0x1cbae9294e8412b5, 0xd24d532b9c117fda, 0x8a9a292e5fef6e48,
    0xde3a5d00dea95da1, 0x7103cc22c8706f23, 0x9543c30e1214a66f, 0x54c6dfe1cd4b64d6,
    0xfb743ebee61baa89, 0x113ef30353d7325c, 0x14e42ca67be2818d, 0x0d2d5355aaaf939a,
    0x05a46d527a8cdc37, 0xf27eaf516bf4d1e5, 0x16c61a2b1d11af01, 0xb1eef9addc7f0737,
    0xedb0100751a51f28, 0x715b31b2fa81ca1d, 0xde19b4d9ba776f3d, 0x4ae4e9af0cae3bd0,
    0x816be406fb340d4a, 0x47d33362ce939fc4, 0x0f6333bd313be584, 0x5ca1840e03209b4a,
    0xeae6c798451d0c93],
   [0x000bf1f94f05b8da, 0xf3e04daf246870f8, 0xc549a258d37e8e39, 0x6a3f24e40c2a27a7,
    0x8b646310ee2f8130, 0x6293b232c8208ca8, 0xe12be050579f98b9, 0xc220b78b502bdb41,
    0xa4035cc322b1a5e7, 0x4158a730e4dc8006, 0xd4e75862de03d3df, 0x0921c2dd33467b1e,
    0xdaeb42a6754953e6, 0x5744eee5f0061c88, 0x20dfe572f7f6b317, 0xc9bdf9e9e984be81,
    0xb679fc575fd70fe8, 0x324963edfaf2910b, 0xf4696a939e2fa4dc, 0xa4123357b40af4a0,
    0x3eafc0ce386cde9c, 0xeac850740b7ee7d3, 0x234d1c7f05cb3b6a, 0x7e5da56e816a7dab,
    0xa099ea9bbe38b2fb],
   [0x69c40b2cd08cf964, 0xc46f6bb0b3710c11, 0x99bfb6da259fcf16, 0x697fa8dc9ade35fe,
    0x79853b0f57b808d2, 0xee76305ad7840cd7, 0xeb17819f9c5d7c69, 0xa18037d02a2a8a29,
    0xbc92efd9d4407ebb, 0x195084243a5579c6, 0x510c7d5f79df7d68, 0x78f0d835abfb8ff9,
    0x076e103a348f26ac, 0x822f153442fe7b19, 0x51ba1d8ff0b9fb42, 0x9175404872c696fd,
    0x7b7161a814c46261, 0xa2e07ef78af3477d, 0x19d8e2ae7a193a05, 0xc366abdcb06e6839,
    0xe00770d1b1299e8b, 0xf0da2940cde0bf9c, 0x11796cd8a61cac03, 0x267a575b551ff2e5,
    0xdc7c86d04b2e8700],
   [0x7edb7168cd54d9e9, 0xbec1c9d7adc02eee, 0xaca4005c3c0ac1fd, 0x00d60def069f3f7d,
    0x231dc09afdb8feed, 0x25fa3fe9fafdc63f, 0x2e14f4088017fa80, 0x38693b8d74eae8d6,
    0xea62fced0a3550c3, 0x2bb77b3457a66760, 0x5376320e53652ade, 0x5021d3056c078d8f,
    0xd7668474d0c01902, 0x4aa17df97a11fcea, 0x22f53beef86799f1, 0x40f557698ad9f797,
    0xe626d415ce506161, 0x2492fdecb4f81faa, 0x65c7eee6604dde0c, 0x71f4d9dd108ae2d0,
    0x365642ea2fa04644, 0x6c58dcbd4773d694, 0xc510738a508327f5, 0xec2cd6ce8e544d5a,
    0x7a3d7f28bdcb2333],
   [0xf3480d08a39e4495, 0x06af29c10f68bb81, 0x399837708a7c6ac3, 0x41dc5ed2899a9c06,
    0xc2dbc9c386c1c00b, 0x58415b425e8d365a, 0x9fe4fff6ff4dbeb1, 0xbeaac6fa09f5ba5b,
    0x3ee9fbd011cad8ea, 0x3c287b3f5464513d, 0xa89fe67729913db3, 0x07a2172355e9952d,
    0xa3b0761b69534350, 0xeab9950943ea1004, 0xe5c915fd398e8b5e, 0x9a718aeecfdaf910,
    0xe2353a2aff0441c9, 0x1d67345c166685ae, 0x3c2e20b7716d1fc2, 0x520119ab76097c4f,
    0x7f3ce3d92045dbeb, 0xcd11f2c0ae946e65, 0x85633aee612f9a70, 0x29d0e2caed5432ba,
    0xdb7a48ddfb410e8d],
   [0x82dde816e9d493dc, 0xdbb1b70b336f3a9f, 0x0855f022efd86817, 0xafd40f085474d738,
    0xbe0fe2bf290f090c, 0xb7acfe345dc5d2b1, 0xb15a3dcf7e03b2f6, 0xca210faebb1b53ca,
    0x3f88ebbc22bdfec6, 0x06db7b34a16cb69e, 0x3ad6c19a1aa5d577, 0xa4d27b599be732dd,
    0x91234ca28ee55261, 0xe6e88c47befb545c, 0xd946807b91d2191c, 0xdfba6351e278e62d,
    0x29f41fb2b9b6ac8b, 0xc26178564ca21f29, 0xe8ad348ec4dfa227, 0xf9f1cdad1e3f09ef,
    0xe928b608bc430990, 0xd49a644c5e744fc0, 0x5194a4f4ac0ae8b9, 0xa1fda25f509f4802,
    0x5fcfa671b818297f],
   [0x63fa8891f504a63f, 0xbd00a990b803ad7c, 0x5d2086b4f9fd2c3a, 0xcbeaa1262244c8db,
    0x4b64015f986ecd11, 0x03b14fd08609e8e9, 0x0c13403de534d658, 0xdc2c73cc79bb94f5,
    0x4d729630224b4f80, 0x0fe1da5705c0c6d9, 0xc7a044657fe8dacc, 0xf5de2e6fede04c51,
    0x257f30903bd22404, 0xfb361c425f53fcf4, 0x6bd7a71471c0248e, 0x76239b26ba9808d8,
    0x0d3e17974ad1cee5, 0x9e5c85515fc5b4f2, 0x6339fac11164477f, 0x1bf26338ca74b9fa,
    0x8536234b199147b9, 0xcb3b290526b1bd5e, 0x5d348ec869adcd97, 0xf9b79bfd620e717e,
    0xd926fee74bbaa8ff],
   [0x487599f1b14a1101, 0xbc67b97dee6a1514, 0x5fdbbf4baec885f8, 0xeda06af9ebd9f5ff,
    0xa4856e19dad881ec, 0x02771d13265ca2cc, 0xe88720317e108496, 0x7d9d343c509b2891,
    0x8e9053e8d456b755, 0xeab7fe89c5aed352, 0x0d8250b4baa17ab5, 0x2d4b920f59527bf0,
    0xaab3ea8dfa1354a3, 0x214fcbb98362e867, 0xe0a2b674818f3584, 0x755e0db30d3dd175,
    0x0c3d1bf69ae5eb67, 0x5d221577df75cb3c, 0x5470e5af75b9a86f, 0x5f6453dab874b8e8,
    0x476d73df1b0c38ea, 0xfce8b6618baa73b7, 0x556fd990874fc2a0, 0xad5e0d7d7c5980d6,
    0x575ababeaa20f6e4]]

theorem key_isTrace : IsTrace keyTrace := by decide +kernel

theorem key_start : ∀ (a b : Fin 5) (z : Fin 64),
    keyBit Qx Qy (64 * (5 * b + a) + z) = ofLanes (keyTrace.getD 0 []) a b z := by decide +kernel

/-- The Ethereum address of the key. -/
def addr : ℕ := 0x7db967bcf885c8ae4bbfdb5ffff5d9ebf96aa0ed

theorem key_address : ethAddress Qx Qy = addr := by
  rw [ethAddress_trace key_isTrace key_start]
  decide +kernel

/-- The Merkle root is small enough when its bytes are reversed. -/
theorem addr_root_swapped :
    swapped (poseidonNat (poseidonNat addr 0) (poseidonNat 0 0)) < secpP := by decide +kernel

attribute [local irreducible] poseidonNat k256Hash PoseidonParams.hash wasmPoseidon poseidonHash ethAddress

def addrOps : List TreeOp := [.insert addr]

theorem addrLeaves : FieldLeaves addrOps := by
  intro v hv
  simp only [addrOps, List.mem_cons, TreeOp.insert.injEq, List.not_mem_nil, or_false] at hv
  rw [hv]
  decide +kernel

/-- The hypotheses of `address_prove_verify_partial` hold of this signature, this tree and a
circuit that checks nothing but `3 * 3 = 9`. -/
example {sqrt : ZMod secpN → Option (ZMod secpN)} (hsq : SqrtSpec sqrt) (src : GenSrc Secq) (label : List UInt8)
    (tape : Tape (ZMod secpP)) : ∃ I t b mp proof p ser,
    treeAfter 2 addrOps = some (t, b) ∧ t.createProof 0 = some mp ∧
    Lib.prove (fun _ => some (encWtns 2 (List.replicate 32 0) (32 * 3) [1, 3, 9]))
      (wasmProve ((secqWire 32).wasmEnv (secqEnvE sqrt fun _ => 5) src (secpCodec (fun _ => [1, 2, 3]))) label []
        tape ((secqWire 32).fInst.enc I)) sig msgHash mp = some (proof, p) ∧
    p.serialize = some ser ∧
    Lib.verify (wasmVerify ((secqWire 32).wasmEnv (secqEnvE sqrt fun _ => 5) src (secpCodec (fun _ => [1, 2, 3]))) label []
      ((secqWire 32).fInst.enc I) proof) ser = some true := by
  have h1 : (secpCodec (fun _ => [1, 2, 3])).fromBytes (coreToRepr (swapped 1)) = some 1 := by
    rw [coreToRepr_swapped]
    have := secpCodec_encField (fun _ => [1, 2, 3]) (w := 1) (by decide +kernel)
    rwa [Nat.cast_one] at this
  have hr : Convertible (secpCodec (fun _ => [1, 2, 3])) squareCircuit := by
    intro c hc t ht
    simp only [squareCircuit, List.mem_singleton] at hc
    subst hc
    simp only [List.cons_append, List.nil_append, List.mem_cons, List.not_mem_nil, or_false] at ht
    rcases ht with rfl | rfl | rfl <;> exact ⟨by simp [squareCircuit], by rw [h1]; rfl⟩
  obtain ⟨I, hI, hnew⟩ := convert_eq (numPub := 5) hr
  have hvp : varsPadded 3 5 = 8 := by decide +kernel
  have hcp : consPadded 1 = 2 := by decide +kernel
  have hA : ∀ sel, (matTriples sel squareCircuit.constraints).length =
      (sel ([(1, swapped 1)], [(1, swapped 1)], [(2, swapped 1)])).length := by
    intro sel
    simp [matTriples, squareCircuit]
  have hok : (secqWire 32).okR1CS I.inst := by
    refine okR1CS_of_new hnew ?_ ?_
    · rw [hA, hA, hA]
      show consPadded 1 + _ < 2 ^ 32
      rw [hcp]
      simp only [List.length_singleton, max_self]
      norm_num
    · show 2 * varsPadded 3 5 < 2 ^ 32
      rw [hvp]; norm_num
  have hdig : I.digest = [1, 2, 3] := by
    obtain ⟨-, -, -, rfl⟩ := new_ok_entries hnew
    rfl
  have hnv : I.inst.numVars = 8 := by
    obtain ⟨-, -, -, rfl⟩ := new_ok_entries hnew
    exact hvp
  obtain ⟨t, ht, hl, hroot, -⟩ := tree_history (d := 2) (by norm_num) (by norm_num) addrLeaves
  have hleaf0 : t.leaves[0]? = some (some addr) := by rw [hl]; rfl
  obtain ⟨mp, hmp, -⟩ := (tree_proof_verifies (by norm_num) (by norm_num) addrLeaves ht 0).1 _ hleaf0
  have hQx : (xy Q).1.val = Qx := by rw [Q_xy]; exact val_of (by decide +kernel)
  have hQy : (xy Q).2.val = Qy := by rw [Q_xy]; exact val_of (by decide +kernel)
  have hrootsw : swapped t.root < secpP := by
    rw [hroot]
    exact addr_root_swapped
  obtain ⟨proof, p, ser, e1, -, -, e2, e3⟩ := address_prove_verify_partial hsq (hash := fun _ => 5)
    (fun _ => by decide +kernel) (bits := 32) (by norm_num) (by norm_num) (src := src) hr (by simp [squareCircuit]) hI
    ⟨hok, by rw [Wire.fits, hdig]; norm_num [secqWire]⟩ (by rw [hnv]; norm_num) label [] tape
    (d := 2) (by norm_num) (by norm_num) addrLeaves ht (i := 0) hmp (values := fun _ => [1, 3, 9])
    (witnessGen := fun _ => some (encWtns 2 (List.replicate 32 0) (32 * 3) [1, 3, 9]))
    (by
      intro w X Y _
      refine ⟨2, List.replicate 32 0, rfl, le_refl 2, by simp, by norm_num, rfl,
        show ∀ x ∈ [1, 3, 9], x < secpP by decide +kernel, ?_⟩
      intro c hc
      simp only [squareCircuit, List.map_cons, List.map_nil, List.mem_singleton] at hc
      subst hc
      simp only [toCon, evalLC, List.map_cons, List.map_nil, List.sum_cons, List.sum_nil, add_zero, coefVal, h1,
        Option.getD_some]
      norm_num)
    (fun _ _ _ _ => show ∀ x ∈ [1, 3, 9], Readable x by decide +kernel)
    (by decide +kernel) (by decide +kernel) (by norm_num) sig_eq msg_ne signed
    (by rw [hQx, hQy, key_address]; exact hleaf0)
    (by decide +kernel)
    (by
      rw [T_eq, U_eq, sT_eq]
      exact not_falseZero (rep_ladM (by decide +kernel)) (rep_ladM (n := u) (by decide +kernel)) (by decide +kernel))
    (by
      rw [T_eq, U_eq, sT_eq]
      intro h
      rw [← natCast_zsmul, ← natCast_zsmul, ← sub_eq_zero, ← sub_smul, zsmul_eq_zero_iff G_ne] at h
      exact absurd h (by decide +kernel))
    (by
      rw [T_eq]
      exact regular_mul (by decide +kernel))
    (by
      rw [T_eq, U_eq, T_xy, U_xy]
      intro x hx
      simp only [List.mem_cons, List.not_mem_nil, or_false] at hx
      rcases hx with rfl | rfl | rfl | rfl | rfl
      · exact hrootsw
      all_goals rw [val_of (by decide +kernel)]; decide +kernel)
  exact ⟨I, t, _, mp, proof, p, ser, ht, hmp, e1, e2, e3⟩

end Spartan.Example
