import Verif.Lemmas.KeccakEval
import Verif.Props.Address

/-!
Known answers: the states of the Keccak rounds for three keys, checked by the kernel, and the addresses
that follow.
-/

namespace Spartan.Spec.Keccak

/-- The lanes after each round for the generator of secp256k1. -/
def genTrace : List (List ℕ) :=
  [[0xacbbdcf97e66be79, 0x070b87ce9562a055, 0xd928ce2ddbfc9b02, 0x9817f8165b81f259,
    0x65c4a32677da3a48, 0xa808110efcfba45d, 0x195485a648b417fd, 0xb8d410fb8fd0479c,
    0x0000000000000001, 0x0000000000000000, 0x0000000000000000, 0x0000000000000000,
    0x0000000000000000, 0x0000000000000000, 0x0000000000000000, 0x0000000000000000,
    0x8000000000000000, 0x0000000000000000, 0x0000000000000000, 0x0000000000000000,
    0x0000000000000000, 0x0000000000000000, 0x0000000000000000, 0x0000000000000000,
    0x0000000000000000],
   [0x5551fb1cb291ca31, 0x1a096fe5ef1a9a86, 0xa230c9d97792031a, 0xf6565b1503c48593,
    0x12f0534fbcca305b, 0x0e4181a771948ec0, 0x2bb7ebfd6d085216, 0xea5929bee2ea22e9,
    0x5e62894c3c2f6150, 0x045a74508d53bb65, 0x94c4ff2b635cccab, 0xe93867f7e3c731c5,
    0xbaeb31d159758e5b, 0x7063377c90ce1280, 0xb6e7310d546444ae, 0xd84b6742c721a60a,
    0x58ed050fbe2bfbb3, 0x2f492c3b00bf6b9d, 0x88633f08ec88f13e, 0x0e2e65958ab1d139,
    0x85f40f1adc6a42ad, 0xa5dd087e0813cf44, 0x4ce2c904b221fccc, 0x2e7c3ca0b1079d9c,
    0x1f28f1a8aa070033],
   [0x8477f60858014e21, 0x54b3891878bf2a12, 0x6bbdd11e2012a312, 0xf7b1b5b2964e7523,
    0xb3ad0212f638617d, 0x4c691805b85c8517, 0x1c0221cd17ed5854, 0x753d018c6e634b3f,
    0xd193bd1f5076392b, 0x0238388a37b248d5, 0x5428c675db5c1712, 0x7e9287f43226a31c,
    0x16e9c4cf994a6606, 0xa5198d1a7d822344, 0xcba2d36b196f5f05, 0x9e4e258a82c17f56,
    0xb013b8ef4731394a, 0x578c749bfab22dec, 0x8edd3891c1fc8255, 0x70dd526933798291,
    0xafc4eab52148b616, 0x4c12ce5c0f94b521, 0x6093c8e71c8941c8, 0xea026042db30168d,
    0x178036d9f43b4808],
   [0x3b39d8676c14e8dd, 0x080bea963f2dc756, 0xbf64f98c7138a675, 0x42c8b60b0e516fe1,
    0x09cebd87773dec47, 0x11a59e622d61205d, 0xa31a712199bebfc3, 0xe89ec180f2ca2266,
    0x4c0616e807fc57b6, 0xaab5647e19fc7778, 0x4583760b046cc2f2, 0x35b8b54f4feac15c,
    0x69efce668745675c, 0x4cc5aaaa1b3aa89c, 0x6370d4f2929492a7, 0xc37136a3a9f01818,
    0x06b824c916404728, 0x2ccc663219cccc3b, 0xcaf002c643d2a930, 0xee67a1deb1d719ac,
    0x9b10a8a95e0bc246, 0xae5a1a039c3887f8, 0xf1cac97a8ba04046, 0x0a620abec9bdd96d,
    0x5967f56154518dff],
   [0xa447e367a3c4b9a5, 0xba1c302f26de407e, 0x44b968d4b795bfed, 0x11bc547b32197c99,
    0x61ce6e5b375e6d0a, 0x4a22e178d075d58c, 0xad624c3379747c33, 0xa0a23fdfa5c76656,
    0x8b8cbeec03c5d1e2, 0xfc1a77a6502a371d, 0xf2af643f30f2923e, 0xfb76166c84fef6b4,
    0x857c8cda642580b4, 0xb1fe0ec9aa58f20a, 0x4cb6172ab8fa06b7, 0x7cf00466171d530d,
    0x12157edca38df3e7, 0xc2a279223f541716, 0x8d61a59a310699ca, 0xca039de054eee9af,
    0x37ce4f76c2f622a6, 0x8b2642ce01cbc2c9, 0xe8e92ccf8f656536, 0x41e8a1c698dee7fc,
    0xf42899801cb366c4],
   [0xd0fa2426c6325c83, 0x8a6d0acc59d5be16, 0x790fa1fb50e907cc, 0xf83b19f2ee430b27,
    0xc2fdd227a7fbcd14, 0xad3d8f0030449c71, 0xdd145a6593f94e7c, 0x76ad17629a2cfa57,
    0x20d4b27501f2b347, 0x9a2bc725b072b881, 0xc767125d1dfd3311, 0x4d8aef6c98e0d306,
    0x34976efd7c40ca6e, 0xff4781878326a0ba, 0xa49ef022190e0b41, 0xe5c21af2a16206e1,
    0x4b1d1f90e6d654bb, 0x6cc8d07be8ed5b8b, 0xf6a099fe7f2d3c0b, 0x5ce9523ec5e54f71,
    0x2d533bacaa8d657c, 0xa96d89e34cf5180a, 0xd39d4a0e6c6ee0db, 0x832ce1531f47abe5,
    0xaa21ce0e3acc7eaf],
   [0x8af64f5be55240b1, 0x14759edb442a517c, 0x27f4ea58c7018bf2, 0x3991cca4154ef027,
    0xaf3aad9a247de650, 0x80f99099eef8a39d, 0x4487c25c7480269c, 0xe743d9c0bde00f29,
    0xd9a0c73ca66244c7, 0x8dec9cbc41ad166f, 0x873835f7aba46826, 0x19b6e3970f024902,
    0x2fe2da9210cb0c77, 0x0e08dc09f9a89de9, 0x5fc069ff9335cbdc, 0xe7d35b64e7e55d8a,
    0x0342cc89fbad47d3, 0xbfdde47347a8c965, 0xa507b7fa153ed807, 0x5412c8506bd41fe8,
    0x4d730fcda07e7fb4, 0xdb747a35a2c84950, 0xd700130a4edb22d7, 0x242da878446c0642,
    0xfc7a879320f244bf],
   [0xf7686a1caf134242, 0xd598daea4003692a, 0x56ba32050a7e330c, 0x86c1be374b180eb6,
    0x8c3f69c3f866d209, 0x24c99d81ca0f5d47, 0xd963155b14aee452, 0x17113daeddca460f,
    0x65ca415da9d67b1b, 0x4a2af15a3747ff85, 0xe3a6d506d658f53a, 0x25ad023b218c700e,
    0x9fc0ee7fea42da58, 0x7fbd43fd29aad83e, 0x2a2f4224df2aeba4, 0x8201820324f81081,
    0xd06235e37d7f1db9, 0xc486e420a088af64, 0xbc7889678bee7805, 0x5d13653c6c5dfe9c,
    0x7e2d48f0e7b87542, 0x40f2e87bbdcf5bff, 0x63737d21f36efae3, 0x689be6e032be092f,
    0xcf9dc33517fb93d6],
   [0x3c50a71d859f7b1d, 0xb0e76e6dc1ec8b88, 0x36f9f4f47ec2ebfb, 0x11064236a83f09c1,
    0xf19c2913d465876f, 0xfb713236d28332b8, 0x21a1e6e3cd5d98af, 0x55f40cbee6e384db,
    0xcadb9fe625a51ac3, 0x29c99ce3780a5f13, 0xd51e8699992aa25d, 0x8f64db352c985b46,
    0xc1a0c2e8ccf697d4, 0x957efeff3875fe04, 0x5ba7fdf8a594dd56, 0x5b353abe6ac0c332,
    0xa9181ccacd8e4799, 0xfe8be371ad21a96a, 0xa11be83054f37ca5, 0x97e46927c897e5a9,
    0x95f18110d0413c57, 0xe5fb9b6211154aa3, 0x9990b09d12a07083, 0xedfb2417e3fc2c5a,
    0xff97d88467a0c445],
   [0x73599e0dcc368cef, 0x2cd49463e97602b6, 0xb58accb62646d9ac, 0x672c9332cca071ab,
    0xd54d2269b5e1f398, 0x302996b7103b7dae, 0x1f387f1d75d02b40, 0x813eb8ac25226169,
    0x0222ffd5ecc879f0, 0x54eaff1b707a6b95, 0xcfdc79f0ceeeb814, 0xfc43af45f45ef5a4,
    0xcf1d5fa96981920a, 0xdc56177b9e11fb3c, 0x6273b9a1689f6b4f, 0x15f94aad6250c4f2,
    0xe280e48a14f66fac, 0xc4c096ac0833a163, 0xe5b93a282bf190d7, 0x08ffcabc1b63094c,
    0x9c2f37cde1cc3552, 0xf93633089997b5f1, 0x0405c9f489897433, 0xc0d6fc1b4f12612a,
    0xe873878cd239f0bf],
   [0xb833918f374af201, 0x86e8b48da9ef0703, 0x6c95098b7d1aaac5, 0x7083124706530ce2,
    0x0e55acd7a857de8c, 0xff5703b765aede03, 0x6e1cc1d5ce7628b1, 0x1db9bf011715f152,
    0x07fcebb164a5eb66, 0x3d06e462d174ae75, 0x1387071fdd6f8ada, 0x4210105d67e0bc45,
    0x6c6bdc234a43d560, 0x26e787de16763e74, 0xa5652a00ed60c911, 0x9a6466c108dc4838,
    0xcf72bc08b50d823b, 0x45f2e05e5c89dfbf, 0x3725084b113c906f, 0xb2ee9ad3824d73c8,
    0xef7f09861db2dea5, 0x861f5f6958e7c7db, 0x7f5f5d780159ada8, 0xeda8b97d20284d9f,
    0x2ad3adbf191ac9a2],
   [0x31637c5325589ca0, 0xa0970102280ab8f2, 0xa14bbe9e4429f9e6, 0x9eed9183b150de0e,
    0x6b881a5133489adf, 0xa27e9f2024b7d775, 0xd2df16af1af18e2d, 0x04f2d8fc4a312fdb,
    0x0f77837b9d2d6a1a, 0x88dfa82887b4467f, 0x1189c2649057bbc8, 0x0ee9de2c788e9132,
    0x86b1a78ee41aae72, 0x9b21cd100350467a, 0x443b321dafa8d9af, 0xa2c0c9c8a7378c38,
    0x11d40be264f57273, 0xf6c0ccdcb1d40426, 0x7803140936e0d820, 0x62c146e60083bef5,
    0x780d09c0c6603a72, 0x0197224bfe7488b9, 0xbf56cdeec408f78c, 0x99caee86fa7fe7bd,
    0xa1da2857e4efb9f3],
   [0xced5c2d3f3832669, 0x19716df1f5f0dd1b, 0x8b0481c5bc6bff1a, 0x239aeb9dfb7b4e20,
    0xc2e9fc887a4b679e, 0x6dd8c71997d9c4d6, 0x7328cd107b6d30e4, 0x615d6b67462b3e74,
    0x897832888ce0ddb2, 0x12aa14615a571709, 0x1927ba41dcf173de, 0xbd3c84d78db74ef6,
    0x57d7bd531a72b764, 0x42453f0329df683b, 0x390a665428dd12dd, 0x59012e021282ebe0,
    0xa77332017cba1a26, 0x7ed8120e618a6f06, 0x329dd72ee17328e3, 0xec4d6ad21fd2c16f,
    0x86db3d1eaceeadcd, 0xfaf6057f07fa58d3, 0xd3c9788ffd7bc6d6, 0x4a7aba24f5aa92ba,
    0x43c989e5c78b24a0],
   [0x9ff28548c78fe527, 0xfcc5d36c63829844, 0x003bafedc5431ba1, 0xa06f99f687799303,
    0x56f4a21052c21e58, 0x922e936f6a08dddd, 0x6b39807f9e1ad0d1, 0x70738957a7e09992,
    0xce134c37b5665039, 0x0a244baf661174b9, 0xbb9f2d1d1449ea46, 0xef0b25e2ded71c77,
    0xddea49f6f17fd1fa, 0xcfd5a558d10e2f31, 0x9c12b26d6c514769, 0x51e84d0fa44a7ab1,
    0x7bfd4c87ef5d0023, 0xa90ab8db9db82be5, 0x1a97c66eb24feb69, 0x42d77dfc0838d848,
    0x8eada13c551cd570, 0xa90b1eee7ea88946, 0x875e9e92b7faf3bd, 0x9f4719180ccc1724,
    0xc9e152e1c048c8a8],
   [0x0043b116f388664f, 0x2d28b65e38578a73, 0x092588e049118906, 0x5e85fe277709b12c,
    0x2f6f437384d297fe, 0xc3b032222567339f, 0xa92d8b99015f5f96, 0xe3f89b0718bf604d,
    0x0c0f80a6c933a89f, 0xe8bf15a357d445d6, 0x20dd4548d069743e, 0x8310842b859946d0,
    0xd4906b95a5fb9741, 0xa7292d542a3354a5, 0xf32a024e43ce472e, 0x69f107b225540319,
    0x98b9f3aaffade8e1, 0x8182923d49583405, 0x69becc154e7724e5, 0xf58fe1b15a1e5ee6,
    0xf9209d2bd27e39aa, 0x3e4402fe5a36acf3, 0x7dd2a994334fc410, 0x3bcbbc96dfe1932b,
    0x1bc86d6510b70a33],
   [0x090e403c39dc8862, 0xefcf43ef8d8f6cc6, 0x613e98ceb3380946, 0x6b6e5ee521cbd204,
    0x597f385eb594e0fc, 0x98d8e948023e64d3, 0xe39b1d569e5d8b38, 0x8f82f381c0c88195,
    0x997866e6c78f2256, 0xb151c4c09d6fd5f8, 0xa5dafa29b3dd131f, 0xec7f4cce6282b6c2,
    0x6425a4b33be99ebe, 0x02e13eac7bb69eb5, 0x1a61eceb58d925f7, 0x77588f5ea37a769c,
    0xdb35c821a79e87ac, 0xc435e5eb91a289cf, 0x2e04af26a853a9a2, 0x1369ed6ed460e19e,
    0x3d9863fd17cd0a64, 0xd3a5bd19cce8c95a, 0xa2c3c24b452ec797, 0x59010aec3a1c113a,
    0xa422f2b23c4e7f55],
   [0x1d108908cd94198c, 0xff80d7bca7e115b5, 0xebe61c1bdf290265, 0x91549afea8f50426,
    0x290a86e8a9c0b7a2, 0xa09539a4bc919e8e, 0x970c9b3452bc73e7, 0xc56048a9f4ef3f01,
    0x36d66ea0c43c444d, 0x4db938698a224fb5, 0xd3322dd590dbba77, 0x37250333697ce872,
    0xcea47da1c3cfaf11, 0x12a1e6e3dc69553d, 0xaf2e6e168a22a7a2, 0x2e1be19d790ddf27,
    0xa5dc1d83d7ca876e, 0xad86011ce0957d69, 0xe237cb7f85753697, 0xbedb709d6134908d,
    0xd3983e62ec915698, 0x4cfbee0ea43143bb, 0xb8ab9a09243b1096, 0x548e45c69c0cd41e,
    0xdebcc8f3350f68be],
   [0x7ba7c8846bdfbbe7, 0x128b8ae27bdbeffb, 0x94664afcc279d5bf, 0x5acb4438c04a18b5,
    0xb47edb76edbdfac9, 0x1f5b134a933abfd0, 0x470aa67f7cb7bbba, 0xae89ea4d84ae0073,
    0xef4e6396e7519658, 0xa126a763dfce5699, 0x0553b024419899d7, 0x379aa1b229a8d00c,
    0xbe845992e6b0a56e, 0x2d6d55246c066f9a, 0x897b3eebb3f257f4, 0x1750c04ec0ebe0cf,
    0x2febc4584f33990f, 0x21f0b411d5c4e558, 0xc4912e372c358e85, 0x715c7b16144b4f64,
    0x0c8386485ce220ce, 0x658817163b49a6e8, 0xed1dd6476a2bae65, 0x854ed1d8e1e21afd,
    0xb60b329486f9b7a0],
   [0x3683fe1acdb98ed3, 0x19567895d8d18c1d, 0xdfae99a41cf1e58d, 0x3763967e7ac7d6f6,
    0x301e5273ec1d76dd, 0x3d82424890fd7d93, 0x9da33ec9c4004e35, 0x7e397e9b9ab75a48,
    0xa760189153a18aab, 0x0e806edca2a0bdfe, 0xa3f563c9c9dd8c79, 0xa6af92ac8115d9c1,
    0x16f9908499ce13b1, 0xa389aa90e9962b1d, 0xc3d1728573e86d98, 0xf1aeb92e16cc885e,
    0x0759bf7105eedfc3, 0xacc8f0c736634f77, 0xa15918d77a735dbb, 0xa43b261d1cea4b26,
    0xebd84f15f744c128, 0x80a9f25ead649f15, 0xd8889c925e643b2d, 0xcb31b5ac89af21cd,
    0x3be4a0228c1d2e0b],
   [0x1d3305b12a57f126, 0xcc8abdb7952f3560, 0x5e66104030929f56, 0x630cd7915fb390e8,
    0x7e19ef4202608500, 0xa560998f111a095f, 0x43bd9e8d25531513, 0x8140039876918087,
    0x2f1a3e67b63132ec, 0x915bc08805cf68ef, 0xf112651a92b41c1e, 0x41c91237a8614542,
    0xa98a38c22c480c24, 0xd4fc55d5e0949b90, 0xd655d3cabb46cab6, 0x3babd8c789638409,
    0x45b8b533c47b8f27, 0x84764c6805da6e65, 0x8da8b23b0150dd52, 0x8bdd391e2dbd7f4a,
    0x91754caac239aa22, 0x502ad0c9ee3ebec8, 0x630188f792fc04c9, 0xc7db2ba4d4d48182,
    0x955f03c9f5ae71d6],
   [0x087f7c0e0b2f757d, 0xa0dae93902ccf9d0, 0x99aa9cbea13ae51d, 0x8240f9befa377a5a,
    0x1db93b2fb0c262be, 0xa63abbb7bf0b6b6b, 0xae72c10b93225743, 0x83f8b351b4e4e360,
    0x72eb19b29821f388, 0x9beab2e7231017d3, 0x216c05ab9ebc137e, 0xc5c125ab13cd33af,
    0x79a113aa0774180f, 0x6bc627177a0a8c80, 0x48cc09d8c82ba4e1, 0xea5cef26ca7d6485,
    0x3c7a93605ad66271, 0xd689fec8e616f6ac, 0x0137c7f51804cd14, 0x44193b188f6246cb,
    0x080b033277eda291, 0x0df8b73a2228d90e, 0x499cbdcbe906721d, 0x5a0ee285eb8e7d12,
    0x57f97e23d91e4cd2],
   [0xa0f2c2b16df582ee, 0xa69b550c01101777, 0x02b7291d5fa2e344, 0x5c657e3cbf8885ed,
    0xaa18462a5bd782c4, 0xe9e8f5731c41b38a, 0xf98f2c734f9948b5, 0xca461239c49ea26a,
    0x7a1170790c3c4ed5, 0xe66dc21bbb26c3fe, 0x68b81567cd321356, 0xdf93996e600fa2e4,
    0x48837642c2533f24, 0x99053e6dec076b0a, 0x507dbf48d6056222, 0xc73a2a6e923d8c6b,
    0x7365a699f530d794, 0xbdc494fa43f97855, 0x884c4dfb5d33d64f, 0xca59d287fcef6ec4,
    0x3ebb9ae381223d7d, 0x31be707299ef480f, 0xb64b36eb235f5494, 0x1d352fad68d1344d,
    0x6529ffd66919dfd4],
   [0x573d35ff43657799, 0xbec072657687d129, 0x6695cefc9361756d, 0xcea4f79512a82835,
    0x82be151edae177f9, 0x14875ea67f16aad1, 0x476c664ad13e062e, 0xfbc375d756a63362,
    0xf420fcb5f449ecb7, 0x674854d5b6d5d663, 0x4781a3be9a9e53a0, 0x02202714945381d7,
    0x177d843b80d81155, 0x44a4895d9f0cff50, 0x84de9609a97909b8, 0x2b350f55f9d3ad80,
    0xbf36079caf8ceb77, 0xbbd6b29c92425443, 0x2b7bed902fc4b544, 0x03fa7864891f5f31,
    0xd53ecf62e2124287, 0x0fff9e594b3abc16, 0x538beff51a742961, 0x1f903de714e5646f,
    0xfb59f2c81a3842eb],
   [0xb4359d284fe7c192, 0x03b25689830fde02, 0xe678beec76069e88, 0xf68cf25a38abc365,
    0xaf5aca381af34f18, 0x07305ffbcbde6331, 0x6c28e40bbd4d4e3d, 0x442f5569b2672772,
    0x5dd952a5599fb14d, 0x2163bc27dd17a3a4, 0xb1d85cb001f1c8cf, 0x441cc1c111addf55,
    0xff39c17fe22ae0e1, 0x5102db3da8f697b9, 0x5bc2e842c87f68fb, 0x2cbfb0baff62aa16,
    0x7052e4b2f8757158, 0xd3e84e68b4a629d6, 0xd72a6a5179809012, 0xb60eb4e44260586d,
    0xce91ff0882c92943, 0x9f749052484fd6d4, 0x321906bcabfaf16c, 0x2826844c6a668449,
    0xd5cf49fbb910f6b0],
   [0xae5771ac24c4a6c0, 0x52455f7edf988340, 0xb7fc5d5d12691a09, 0xdf5b39299065c2b8,
    0xcfe1eaaeae5a056c, 0x4e8621d94667f56b, 0xa7db2759abf83ffb, 0xb99005ea55818dc4,
    0x33627d18fc45ce6b, 0x7eb89b541194d7d3, 0x141ea4881386ba2c, 0x1c1ccd0efeb30422,
    0x60c548811303d173, 0x8248186091fffc23, 0xc6357f41241ac7ac, 0x6790b3690b0bb7f5,
    0xb9c3cbf395a13f68, 0x0b91b24f627c1e77, 0x913a4dd819171e5d, 0xd591c922631aaf50,
    0x883ac4b8af4db53f, 0xec449b5b07d4cf3a, 0x5461b417bf6b9fe1, 0xc4bb62a79cdb7b2e,
    0x7e220e3c080cf8b8]]

theorem gen_isTrace : IsTrace genTrace := by decide +kernel

theorem gen_start : ∀ (a b : Fin 5) (z : Fin 64),
    keyBit 55066263022277343669578718895168534326250603453777594175500187360389116729240 32670510020758816978083085130507043184471273380659243275938904335757337482424
      (64 * (5 * b + a) + z) = ofLanes (genTrace.getD 0 []) a b z := by decide +kernel

/-- Known-answer test of the specification: the address of the key `1 * G`. -/
theorem gen_address : ethAddress 55066263022277343669578718895168534326250603453777594175500187360389116729240 32670510020758816978083085130507043184471273380659243275938904335757337482424 =
    0x7e5f4552091a69125d5dfcb7b8c2659029395bdf := by
  rw [ethAddress_trace gen_isTrace gen_start]
  decide +kernel

/-- The lanes after each round for the point with abscissa 1. -/
def oneTrace : List (List ℕ) :=
  [[0x0000000000000000, 0x0000000000000000, 0x0000000000000000, 0x0100000000000000,
    0xb346c6e60af21842, 0x14fb22586068db63, 0x6fdd7f58d2a84c26, 0xeea7767e580d75bc,
    0x0000000000000001, 0x0000000000000000, 0x0000000000000000, 0x0000000000000000,
    0x0000000000000000, 0x0000000000000000, 0x0000000000000000, 0x0000000000000000,
    0x8000000000000000, 0x0000000000000000, 0x0000000000000000, 0x0000000000000000,
    0x0000000000000000, 0x0000000000000000, 0x0000000000000000, 0x0000000000000000,
    0x0000000000000000],
   [0x2cdc1d5fcf42869e, 0x93cb52668f1ec167, 0xc345277aa37a0cb5, 0x1a99b56b2533055d,
    0x122ff2146dac8a1d, 0x003f56f78996afa0, 0x4b0e0419ecb21560, 0xfe5964747f1501fb,
    0x6647592639563c35, 0xd6bba6e37e3509c0, 0xb3720f41f2f471c2, 0x4cc669e229e8e408,
    0x6581dc8073196527, 0xe465b1817176872d, 0xaddefe280937b5f0, 0xb54b1c74645dcf10,
    0xd421ded3a663b434, 0xd73a91ea588de227, 0x39fd7c502a8272fc, 0x712c8878326dc9a9,
    0x5bec3d5616aa1b49, 0x99440934597653bd, 0x4a0c43967aaa1840, 0x5c205b9dcc52bc5f,
    0xa2d73aba88cc24c9],
   [0x34a2b59615eafede, 0x6af9129c6e93530c, 0x325860114c4f87f9, 0x371c2d9dc997b608,
    0x299629a8f9586e77, 0xa6a7ea554aa5288e, 0x54d6051622d31853, 0xd452777c19c02c94,
    0xe11295c824bfa748, 0x3c64ce7fff4736d0, 0x52772890a6f4c236, 0x5adf8d47718de851,
    0x41ba614eccac1399, 0x273de6b4037094d2, 0xfa73737eec2c6242, 0x9b0c06cbf96b2816,
    0x772d72298e3dd9f4, 0x127b33d46533c64a, 0x57dbfb34e25e584c, 0xea4d51265011dd78,
    0x15bfe689c86e9dbc, 0x127bc63072722c54, 0xa16f72597a251b07, 0xd35ea3faafc93bf7,
    0xccd3dd78239bec15],
   [0xf6b0dc820f5dd895, 0x558e1111a355ae4a, 0x9d1e2911807f2b55, 0xec0a13a5518c783d,
    0xbc53077fa2e9af59, 0x47ce2c6ecb5a40bd, 0x5174df592719cd57, 0x8837c67facc83736,
    0xb0e046549154cbdd, 0x4944790b6b82153d, 0x5389d7a9548c36a4, 0xb6047dc5f5551a0d,
    0x6c6a2ec0b9c07971, 0x68d9bec3b374c946, 0x2b4b630a4ec2f7b9, 0x7e0b5c0f160c144d,
    0x81a334a4c71ab0bd, 0x0e842af5f70b3ef4, 0xa8a5e3cd2a5e6c5c, 0x5ed5650572586ef9,
    0x7964a92691b18644, 0x502fc06b584afeea, 0x1da380d96335a947, 0x8d3984a69e83af87,
    0x57dbbdbb9ed16383],
   [0x77a0f6a70ae7fa7c, 0xe9508c8389e7132b, 0x55e674723339ed9a, 0xfbffa8e7664f182c,
    0x65079df36dfd6252, 0x793c96bf3bcc7f70, 0xf4ab39e532b027b0, 0x136c6e8619b2a1e2,
    0xdd67560654b59877, 0x4b31f2a54442fd1a, 0x49f4b0b72ca0ff17, 0x4fa367391c3a2df2,
    0x0248e371f14910f6, 0x0b7da46a09eec394, 0x8f8edb0eb1a9a3ab, 0xe33fb5fbfb3f6177,
    0x6486a1155b26f7f7, 0x10ab07a7c3462295, 0x289448c9e692c677, 0x65c9b060a0c9985c,
    0xd14d3a90f8b19ab9, 0x09de18d43b293edc, 0x6e10f3f8ef35cd67, 0x4e74016f722fd649,
    0x8d4d144e34beb8f1],
   [0xc3ae11e68867657f, 0x58c8d77595595c99, 0xcb20749c1d7f2a58, 0xff652c0132b1560c,
    0x023b27d70db28316, 0x0ed148d9e51ff6b7, 0xe0153e0258922105, 0x0ea3aca752623cfb,
    0x020bc4959db3dd4d, 0x18ef61c5bee0b758, 0xf134bbf47841811d, 0xd99815c3623d966a,
    0xbeac12d479416111, 0xf80cd4930bc867cc, 0xffe5a854997b8965, 0x9ff3f9815d0bd1ba,
    0x17bc37aee8959f8b, 0x244b73b1222e7d34, 0xb321a52b2cba7d52, 0xa9ea7708f999521c,
    0xbb7a466fad60721e, 0xf9b8b0959819c36b, 0x05b9f80076a1d295, 0xa89977c0c42560f9,
    0x6059c3873922e6c5],
   [0x700ce4105da40ad1, 0x4e540542ce0bb18c, 0x40aa5e22cce45935, 0x2cf5f9b694b61f2a,
    0xe7c92f329f59e6c7, 0xc1d459ce9fffc988, 0x5478874ad5c3b21b, 0xfd809993031f36e7,
    0x1bcfd74d84c73408, 0xe0ca2bcaa62e22ea, 0x43585281787d399d, 0x15c13c2264da38e9,
    0xb7bc3f5861f18f29, 0xf523bebe41994292, 0xba65481853846589, 0x047a798eb32b8e9b,
    0x7f5b0477593d5af7, 0x8721290b2b1c6573, 0x6aa322fb043f624f, 0x1d2a4682416782cb,
    0x1ef824528741c644, 0x4560620b8e15a41b, 0xc78c64c85ced796e, 0x5518cbdbf2a03912,
    0x1201753acba728fa],
   [0x098f2aac4de42ad9, 0x8b9c7690d5b94ec3, 0xbb2f0bcb3f2e2399, 0x0dab97b4902a004d,
    0x9c46dc124f914b6e, 0x5d969cee70f44206, 0x78a1dc46d90cf243, 0xf4c7222c659eda40,
    0xdaf436619bb46c92, 0xc32289cbb44faff5, 0x6e53b36b6a73f0d4, 0x41e6231172a5bb9c,
    0x68341557adb409a9, 0xcd19c3da6df4f1a4, 0x2e309c8d0b53176b, 0x8126fde4ead7e99e,
    0xfbdcb511e15867eb, 0x8da3486585aee0a4, 0x81cf62e4cc8d64d1, 0xa5ebbb9141e33ff2,
    0x368f15ae4aac2e4f, 0x289ee37e7f0a6f6d, 0x115b038f2bb93444, 0xd99441b23568f649,
    0x24464936eff93e10],
   [0xfac18a42c1f525e2, 0x254b9a20a96019eb, 0x74658ded9942ffd4, 0x41409e3adcfd23b4,
    0x30a027a18f998767, 0x4fc0cc4184779962, 0x277e5f01aee1bf8d, 0xfc54b59fab04cf91,
    0x4f626403f7bb8dfc, 0x3e8318d2e4948202, 0x646efa8f2203a8f2, 0x693fc2feec32a77c,
    0x8900c0ad220f8e84, 0x916ca7307c85049c, 0x5d22579f9d141212, 0x71707f01cc18f81d,
    0xe446d727f589a4ce, 0xc0835ade6834dedf, 0x0bcf18e1b8509608, 0x7289c2472f1050f4,
    0x33b09b14a91c8558, 0x9bc8705f664fc016, 0x32851c3bd502ebaf, 0x9b296475c8fe8449,
    0x4c9782afae72a65d],
   [0xbe15831c46650fb6, 0x6e318e22a71a8733, 0x08536412921001a5, 0x6028bb13c4e05e7e,
    0x44883726d2b30959, 0x89f7c6bab6908701, 0xffcf2f2e5de807e6, 0x87ecb3e92c909f01,
    0x7386123bdcf975be, 0xe12216f0d574ffb0, 0xa57d6781e374cffc, 0x9b1560a33ebcda35,
    0x845608abab711a13, 0x5f55ad84350e0f3e, 0x89783a10b48bce9a, 0xb4ffbf3deac615fb,
    0x3e4a968cf9711538, 0xff8a4a5321e4b237, 0xedec7829cd5b649b, 0x4eb2200a52a336cc,
    0x1ee01ba6c9dabad2, 0xfab3bf851cd61f62, 0x11bd24bedab1f157, 0x1468877acf059453,
    0x5832768de8d6f82b],
   [0x01761e11dc9f5c7f, 0xe6c2a04728ae9b49, 0x5f16a925eb8ffbb1, 0x7aa62799cc078a8e,
    0xe60209671f16e413, 0xdb853b4857c9a922, 0xa17191e5162377da, 0x08f7da355c6cc1c8,
    0x6f5fc9aee56d6a96, 0x12d2875b749b35fc, 0x0d8845c19499cbf8, 0x482f2140aabbd50a,
    0x65bbb288a7509f59, 0xecc65e14d0233f2b, 0xdecd24d3deced65e, 0x2ce699205ef5f68d,
    0xcf3d2200fd05a76c, 0xa61583ede2f433ac, 0xaae7a70e3d7409b2, 0x6f9c14aee533dbcc,
    0xf72b9ef0ba3cf68c, 0xa2f17e1d9210372f, 0x58dc7d2c476fc941, 0xd382a2f52b147d00,
    0x26e90907c409e39f],
   [0xa6be3098da8fa420, 0x873e468b1bd1e8d9, 0x078fa230fcaf9f50, 0xf978156585d404b6,
    0x85d3f40d0d5567a1, 0xc71cdaa9f32b4654, 0xe5eefbfe311afec5, 0x51065bcffd3dbf04,
    0xb4d2bbf594736c8e, 0x07652a0a4c135ef8, 0xe6a5d35973303ce9, 0xaedb5b1e550fc1ba,
    0xc19bf23c2cad4a17, 0x8ceff48d069d3196, 0xc13d6c8c6f66839c, 0xd0b3313ee2f923f5,
    0x5d6d5447867b7f1b, 0xf56aecdeb454db73, 0x2271fac6b4f3c3f8, 0x069586b225b6925f,
    0xbf7ca2b9333c4518, 0x4d873ad83d7c69bd, 0xbd00432bfdbf0563, 0x954dd714afca3363,
    0x9d0793dc011ac2e5],
   [0x8b6e4214ddacecd5, 0x03f12b6d5b96d77e, 0x86e8efa6c0eeff3a, 0x245c27c433892706,
    0xccf22fc7a6df5d9b, 0xa51b96c628739bc5, 0xc5a5ea7864ca10d0, 0x3bf94e2fa1fdc6fd,
    0xfbb8132b1f9895b8, 0x31060db076a772d1, 0x00afc8b2b3d6303b, 0x584f2b557c439819,
    0xe0bce062d4573826, 0xddadaa3f140b8ba4, 0x1796e194f9927118, 0x605bb9a63910eb10,
    0x471ae2aa4c6e8a4b, 0x80c6766b1497b2a0, 0xe5df9d8b250d3a1c, 0xcdfa4434acb80714,
    0x6fe71145e21fc336, 0x15ffdfe895faffc7, 0xe945443e46b7cf12, 0x65930770d30666c5,
    0x7ef3adc5faf2f9a8],
   [0xfd708701177b0440, 0x48549cc9499c2310, 0x46d493f94169b59f, 0x49e72100f56e74b7,
    0xf03d7b73b81c0cbe, 0xe2b885abd12a6115, 0x0bfc2b6c84a79e06, 0xc5c85706a3076117,
    0x2134c144840283f4, 0xcd7619696886d937, 0x9d8ef0621206aaa9, 0xf3455eb974019478,
    0x0f5affc80cb49bd9, 0xb2bd495aa5bccd25, 0x172aac2d1bb7ed92, 0x8b361f0a344f1256,
    0x2c4bf4c75151090e, 0xdf82ce9ef67fcb07, 0x448b1d0d39aef41d, 0x6ea38be4a25b0e5b,
    0x57c64cdd56d5c7a3, 0x13a4b31a48bafc35, 0xf4e540f1afc6dd16, 0xccbe1f657b7b24e7,
    0x7b2e905910d3b9e5],
   [0x680c0f0f4f4e33c4, 0xcb42f1609cccafaa, 0x62d5ab2661374505, 0xa8b6b5de64d69c28,
    0x1d24da6389dae186, 0x2a26a162d9153ac4, 0x16093516fc7b340d, 0xc8f1d351700667b9,
    0xd424a7b79efd505b, 0x7be3078b86e19e84, 0x91c28fdb2bab9734, 0x0f4b4ec2775a4bba,
    0x2fd23b105cf18290, 0x3560a9d9e5dad281, 0x1d78fb4f16e5d034, 0x920c0091881b5d11,
    0x8bcc40fef414e23f, 0xa6501cb120f9c2ee, 0x895125c261f5768a, 0xedd5272d1c3fd14c,
    0x9b5952e5796e4d2c, 0x7d3ed76e356c116a, 0x191cccfe4ee3e294, 0x0052a9708e06ab10,
    0x696146d8c6c542b6],
   [0x5ef3365621014912, 0xbb6a0b3dfea07bd0, 0xad3f6f541513cb4b, 0x5398dcf5e8a9b727,
    0x849f227b317b415e, 0x3535465c56cea3c5, 0xf44ebe049d707229, 0x0b6f0579402d0b40,
    0x85870484926c1de0, 0xf74b2f7be63e2ce9, 0x4995c9a337bb537e, 0x2e1f373087bcae8b,
    0x0988c4d654231928, 0x1ef2ab101436779e, 0x8f9049905dc03ed9, 0x234fd987c8454057,
    0x4234038ddc3646bb, 0xc469b571e7146ad0, 0x17ca0a77b1ffe9a5, 0x8f74febcf9b313da,
    0x05f6d5a1b569b80c, 0xc2405c149b77a694, 0xb797a60440958e8c, 0x1a6fee48c27295cc,
    0x81d20bacf16678ef],
   [0x76ee9fe7c5bdefdf, 0x03901cea9b096fc1, 0xf819a698a3b5c42e, 0x9d0660216ca4e99a,
    0xfdeb65a2048ed352, 0x68ef5fb9eaabb0b5, 0x3308d8c083f36c65, 0xdf4f38329f872c87,
    0x6b968ad89d24f58b, 0x08992aa51a78bc3e, 0x1c9b8b5f9d8ca159, 0xec7f7dfc2e729318,
    0x2b6d1574aecef2c7, 0xea98f6cd79310fd3, 0x5c65d1ac59f3c82f, 0x19132293701206f3,
    0x2c49667051248a48, 0xe7e78bcfb256124a, 0x79ba9c6e27f647fa, 0x2063dc70c3e487d0,
    0xf2b8639ea1723388, 0x8cbf5a6b64bc2c28, 0x671c06b80e82da78, 0x9fcd4b226686cd80,
    0xffd85a7aa8d67e45],
   [0x17e39dd8efa85c81, 0x90396e3a9cb8efc0, 0xeeffdca4842a7052, 0xe88b324162e3cc55,
    0x615ee99b8c0a16b5, 0x210aab42234574cc, 0x30427c513153440e, 0x91ec83052f1ea396,
    0xfcb713d9202c09d5, 0xe1af063983f033f9, 0xe2561b294b500163, 0xda4bd38e5582b29d,
    0xcc8ac3d044070157, 0x5a4302a498ccf928, 0xca9eed168793ba49, 0x207756a2df5c9185,
    0xcfd92c9eee04dba8, 0x096ccc5b27f3e451, 0xcc7813e19d5c82d0, 0x7b767c60e910888a,
    0x1e5f6d4928cbf642, 0x358d3f5b9995a1d9, 0x13f3c7ea781b696a, 0x066fb20738e3e0b4,
    0xd1b976c3fd690e68],
   [0x732e33ae14eaa203, 0x7a5bfc51820c045e, 0x48d72a21d9ab4189, 0x804295f3daf484d2,
    0xfe7b10a1f34de033, 0xfe6db07369882b5a, 0x8133c58f2c430769, 0x23d57bf9c495f600,
    0xc9c306e84aa476f3, 0x32788383c770727a, 0xd166e4ef02283cf8, 0x768724038794df66,
    0x920ccba299e463db, 0x61d20935e003910a, 0x026facbc4214bbdd, 0xcd3e5fbd388c46be,
    0x821c14459241312e, 0x15a15d14198c8d8b, 0x8576bd318c7582df, 0xd12e8975ee8029cc,
    0x7d2601c9d90b3fb6, 0x994a3c4a0a802b03, 0x39fcbb47ec21bf0a, 0x311ecf4420ff4281,
    0xb414620822710186],
   [0x9a128d6cdd31a7a6, 0x00876a7266497403, 0x0b1cc16619be109a, 0x9af91a6cf627d22d,
    0x7e53c0decea0ac17, 0xf7e3aa519213486b, 0xd15663b4ad455295, 0x2af09e0ad23c8cc9,
    0x2b052c8b7a80fdcc, 0xb2f60ae059552463, 0xc88872433c9c52b8, 0x0ef584340d0e07e7,
    0x27e58c78c1805db3, 0x6e93db0ef60be835, 0xfc5b82aac9464949, 0xd91466f8f6b8d4d3,
    0x9a72e7c78016ae6c, 0x50163fe6f35980c0, 0xcc389652835f99e7, 0xe9f8e11daa241baf,
    0x98c692d32058b457, 0x8e321cfda3e7f349, 0x970038cadd133d66, 0x431730161181e780,
    0x3966f95159afa9bf],
   [0x6c3a302532a9678c, 0xfe153ffc52b9b450, 0xb69458780bcd1fa4, 0xfbd5acc5ee5db8de,
    0x6f5175802efbf814, 0x9981b4d399b6271b, 0x3e0fbe2e6efaba0a, 0x7f9af871f2166ba5,
    0x51637b1cdd6e0d0f, 0xb9f2920b5f003e4a, 0xc626c62b0750a3f3, 0xa5f7ff7161a198f0,
    0x1f1166f4449899d5, 0xafeedfafeb19fd36, 0xbf703a4837efe5b8, 0x41433c713f302a6e,
    0x25d69edcd3c061d7, 0x16744fc3188ccda5, 0x2d1bd615e7e91bfb, 0x91decacd9feee8fc,
    0x1c1e88af6d6f85ee, 0xe08f4e61d8b07d33, 0xe6a5dc92a645cee2, 0xd498a7433abf6408,
    0x42193261b8a700c6],
   [0x16065b56ff1138cc, 0xdebcc8d97c1df647, 0x52fc924238555087, 0x3ae2920c4e7edfb4,
    0x896910ffeba0d9e2, 0xfae356191a915e2a, 0x66c865d809598ac8, 0xeb29abcede46e591,
    0xfe00acd718e2ff73, 0xb7fcd1d99e2d65d0, 0xa2c6954f77a04a25, 0xa222a18d1d27d0b9,
    0xf9f4551171438c8e, 0xbc5fab64a7066290, 0xc3db8efde2bc2d07, 0x9cbd10f6d2505d1f,
    0x5da985b72b0dfda4, 0x8c88f6eab13e421e, 0x15f7a27556e176bb, 0x62c4fbb81c770e1d,
    0xb2c1b14495b86eb5, 0x92cb8f825f866fba, 0x57a1b2c7970205e6, 0x614bde756da209d6,
    0x0f4c0e5aa4d1b2cd],
   [0xe4e87cbbe550edf8, 0x8627074012c1fbfb, 0xef46b0a2104eaf60, 0xde7fd873a303e75f,
    0x773632663cc9e278, 0xa943cf80f43e3464, 0x90bf771ab303b737, 0x93535ca32d7bd4b8,
    0x0bc0827d05a8e74b, 0x436efca6204a8827, 0x59e7489fa61faf79, 0xb4fee064cf283349,
    0x4c8c850eb60fb5ff, 0x7aa0227c3c15ffed, 0x9e268dfcbd2671bc, 0x1e524cd08a2ef680,
    0xcdf2fdfe07ff352e, 0xdb6cb828684e87f1, 0x91921c62430d348e, 0xbcfb7faeb353e10c,
    0x7567e4e69c43c6b6, 0x682a42b00fbe3865, 0xea95ff84321a1382, 0xcbf917ec2b4ebebc,
    0x1a139f5fa0e22002],
   [0x2623b0988a72d22a, 0x3e4e0681478df948, 0xa1c4310e4466fdab, 0x0e5cc8cd68112966,
    0x42b5ca499397ed61, 0xe160e58dd62b2b54, 0xaf7b1afe30a5ee07, 0xd07ded764ae4911a,
    0x69eeb60576276a83, 0x66616e93b6adf5d9, 0xff2eb72a66469181, 0xf5cc59a89a8b597e,
    0x8b162c24a7c14096, 0xedbb642b961b60b6, 0x676e84866f8cb26a, 0xf45a26f1aae14610,
    0x978081d6a6c33ac0, 0x1d39c743f38ecb65, 0xf470b50fa4359d39, 0x31532574d48c2199,
    0xd1c03600b4e34d8c, 0x6a9ac4c4839b1eec, 0xf788f94ed0b49296, 0xd913ec31b5673e6c,
    0x7444f16133e31a78],
   [0x9a58779a3e4fd5c0, 0xf6c64433476c1414, 0x2d1432e18b58caee, 0x7baefaab712ca3b0,
    0xf1ecb088962e1a34, 0xa995b6ad83719ee2, 0x09671e823d2efccd, 0x123c9dc4d34ea95e,
    0xadc965601dd6f225, 0xc035a7c435d83f1c, 0x070df19aef05df02, 0xd69a972df838c3a9,
    0xdb87a05e2bf17e87, 0xd683e5cd05a338ad, 0xdf9821143229922e, 0x5a8f877d9db75060,
    0x80466589000924f9, 0xc61f44a33002df48, 0x200c05d05c2be707, 0x7e84364ab364a9f7,
    0xb9fceda9bb98a4af, 0x00be754a61f5f2be, 0x25badf5979c17b4f, 0x1cba749a41aec24f,
    0x5d40bae68d910a8d]]

theorem one_isTrace : IsTrace oneTrace := by decide +kernel

theorem one_start : ∀ (a b : Fin 5) (z : Fin 64),
    keyBit 1 29896722852569046015560700294576055776214335159245303116488692907525646231534
      (64 * (5 * b + a) + z) = ofLanes (oneTrace.getD 0 []) a b z := by decide +kernel

theorem one_address : ethAddress 1 29896722852569046015560700294576055776214335159245303116488692907525646231534 =
    0x3344c6f6eeca588be132142db0a32c71abfaae7b := by
  rw [ethAddress_trace one_isTrace one_start]
  decide +kernel

/-- The lanes after each round for the same point with abscissa written `1 + p`. -/
def oneAliasTrace : List (List ℕ) :=
  [[0xffffffffffffffff, 0xffffffffffffffff, 0xffffffffffffffff, 0x30fcfffffeffffff,
    0xb346c6e60af21842, 0x14fb22586068db63, 0x6fdd7f58d2a84c26, 0xeea7767e580d75bc,
    0x0000000000000001, 0x0000000000000000, 0x0000000000000000, 0x0000000000000000,
    0x0000000000000000, 0x0000000000000000, 0x0000000000000000, 0x0000000000000000,
    0x8000000000000000, 0x0000000000000000, 0x0000000000000000, 0x0000000000000000,
    0x0000000000000000, 0x0000000000000000, 0x0000000000000000, 0x0000000000000000,
    0x0000000000000000],
   [0x2cdc19dfff42868e, 0x2e558a378b1bf80d, 0x12691baefecbc798, 0xa5664ad4daccfaa2,
    0xd22ff2546dacb99d, 0xb4dcb41316f30f3b, 0x0d0d5d2f556a6f5e, 0x30261b8b80eafe04,
    0x46c7d9263db60c35, 0xe53b66e3721969c0, 0x6cf046e3dbba17c2, 0xbb02d922785e2381,
    0x91c56c41a2afa201, 0x95509243d1af5426, 0x8da34875df862c2a, 0x62798f35aaedbc36,
    0x2bde212c599ccfca, 0x9769064181606d34, 0x8fa46024041f30ed, 0xc775950c18b055bb,
    0x2bc9215893f7bcd6, 0x719f6a8623d40bdd, 0xecdb79623ae2d82b, 0x3bf7e10e8d9a7c34,
    0x66e5f01165c0c362],
   [0xf3fd0795f2ce8d28, 0x294fd20af5c63366, 0xac702fb059467592, 0x1acf3ab85ca8326a,
    0xf683732ec52947b5, 0xdc7660539439348b, 0xef4db6baa035c116, 0xcb7b07cec2bc6b3a,
    0xa98f40da8ced03b2, 0xf6f931109b404f93, 0x2743d3a1ece63cde, 0xde10dba888143407,
    0x7f980317ec9e4ce5, 0x57de91a7c3a6d861, 0x968e51e0dcde5361, 0x9625414390506fca,
    0x16f840e09cc84ed2, 0x806f3af5c9805edc, 0xb5516a8561d0075b, 0xcb0d8021da181096,
    0x1f6e714057a27be3, 0x75dc593cfe4a9c3f, 0x486fb69bcaa5151a, 0xc52ff53a957bcd9c,
    0x922c2d3733672525],
   [0x5285f5d587ec7ec8, 0x443d1cee92db4941, 0x8cd502a97a69b4ab, 0x085ce43c81ff07be,
    0xd0515bd0193d8167, 0xda269c638e7eb612, 0xd22c5c3cf41616e1, 0x75981e138909d03a,
    0x6136a6ab11443135, 0xa35b5f81376a090b, 0x1356b0d0a57eaada, 0xe96e6e6a434e562e,
    0x60c1e63866bd5694, 0xf92ea3e69652615c, 0x680545aca28cce7e, 0x258d3a32911b22ae,
    0x399760b45cedd92c, 0x94cf0bb0ff7b11fb, 0xbb277c2a9454e938, 0xecb813a3e1d6bb09,
    0x7f299860da2ce8ed, 0x6c235f922df79a69, 0x790b1300f01e51a1, 0x8e51857f39640506,
    0xd5b00ed4483feff3],
   [0x8f48aa62bbe550b2, 0x95215eaa4ef6d66b, 0xa37a2a0377396ba4, 0xe4981174dc39ed12,
    0xe8870e8885357ec1, 0x87287e325a208af1, 0xcc4530449654dc73, 0x073aff614ff36134,
    0x56b8130bfa7d93a8, 0x3bf18616da3ec99d, 0x5bfb4b33a7e09a08, 0x65bf13a290bb6e8f,
    0x178d0c5da19ed1d1, 0x685fe9cbb8f06ed3, 0x9b5de8b1b6576266, 0x73ee73554bbf4fae,
    0x23d006e2d96e8d60, 0x33c8ef91dde34f40, 0x777376289067ff9c, 0x8dbf1354c9a98802,
    0xdb0c88de9645d2ac, 0x5b6198fef6eac42b, 0x71968b2c0fa5a2a2, 0xdf5ba8743a8ba816,
    0x13afb32fbdd35642],
   [0xd8beac2ca5fde4be, 0x96a7ff4003bb9b32, 0x081fd53e4eae4877, 0x205e2729387452d9,
    0xb584fecc38ce2c48, 0xf2d41ef8eab3c0d5, 0x25f81cd30eda7dc5, 0x30a86e3baff65655,
    0x4779fbf188a71852, 0x1a03c17684593515, 0x1afc86018e51f8cb, 0xe5f1d91273a4cba9,
    0xe1934cb90be1722b, 0x18bbef42c875ba48, 0xddaa6936381a14aa, 0x88068c5d88791602,
    0xb045623fe8e2c460, 0xc4332ce50a3891ff, 0xbfbce96ff68d4b93, 0x434b9cb54b4d5de8,
    0x80a5a9a8320f766d, 0xf935fe4710a493f8, 0xd08f8f0e100ed4de, 0xc63f78fa12eb6059,
    0x73fe1a5cec055105],
   [0xa159762a0e1c248c, 0x7b3db863dad9cb4a, 0x5d733f123972fce7, 0xbf53213612e4f2ab,
    0xbea069c0eca54820, 0x64b70f88521f5db0, 0x9289e6e96340cb74, 0x66e8d1280011e3ea,
    0xa5cdd06859787268, 0x4b652d9c3dc10145, 0x47d84dbdb318ef6f, 0xd2632d456b79fb48,
    0x7e1ee030a9a0a437, 0x151876ac6eef766d, 0x40db417207c9f600, 0x8a16dff1fe9b42e7,
    0x6102cc20dd19140c, 0xd10c73a70db4d919, 0x7d11b2efb68fea5d, 0x008f968466a5da43,
    0xc6279b26758b0d88, 0xd603c92db61cd25d, 0x0cdb08d5c6b8dc39, 0xf3fba93e5201976d,
    0x49c17f23a9592588],
   [0x74b55e26ecb73a7c, 0x466d469885cf0b4f, 0xf4756fa4c96dedb5, 0xd4baab5883c7b606,
    0xc2e6a8ec4453d428, 0xd6b8b9d289e084d5, 0xa4f3d0c3a8e461f5, 0x51786d84d90a7271,
    0x3180a7e0eaa901c0, 0x7019caeb1d91bee4, 0x8f34402646935f02, 0x5807d82388f25c32,
    0x8c0f4c92c4efdcd7, 0xeeff37d94df9f49c, 0x586bd7085cc4af56, 0x9db3f96d9c571413,
    0x14467c0c5c304343, 0x22dff6e3b143449b, 0x0bb9685f5085bf82, 0x2ad70c15549b84e8,
    0x74da7ce51c5d55be, 0x97f2936f0039918e, 0xb3e6b3aede9e64d7, 0x54ae1cff9567db87,
    0x21a1cf4f9721d750],
   [0xcc8d4aa4f82af4fb, 0x403854175e586fd9, 0xbbb368a45f90e0da, 0xe76cf73a82a44851,
    0xf17e4d7b6a54bc7c, 0x2f5ebfb3cee45d80, 0x196fe3919a6ff696, 0xe42b038148f08595,
    0xcfad5a1d0b75752a, 0x94ccf1aacdbe1bf9, 0xe635ce3da05edaec, 0xd95487b8fef798e6,
    0x18ef2f77013204a8, 0x61852388f2e7f896, 0x3a5ca400207bbd9d, 0xc737c5b9d81681ac,
    0xafd463dcf7088b00, 0x1eb409b550692d24, 0x262d493ca764fd23, 0x95e773bfabab1197,
    0x8b7f140d3815ed8b, 0xedb44bbc4b7e43a5, 0x1d268b614c8bfef1, 0x84b872583d1a1e51,
    0xeb52b08b171ddef8],
   [0x4d1071959cc5733f, 0xd2cf0e842d40325e, 0x1400dce93ae41238, 0x471bd25cb1c41ce7,
    0x24db0adcd1c1e8ff, 0x67e497244e93c075, 0x57c699d22067d684, 0x1c45792db1b0c152,
    0x70fbadfefe8b92b8, 0x5104d7152179ab50, 0x81ba46cafb1bae1a, 0x18df5a24748029f4,
    0x1d580098be5b3da7, 0x6bb90ea7954868fd, 0x8710297faf14fa2f, 0x2631d5380fc7112c,
    0xb2dfaeeb6c364b25, 0x47004a7417cca860, 0x5f0f1f0bdc8595d2, 0x0542c0c3b471ab95,
    0x6b0ec6fb06ada3ba, 0x4a697b51bca6457e, 0x0c920119ca425b96, 0xf115c2861090dbe6,
    0x272489bc0a22a5c0],
   [0x1e3541e85f5f4242, 0x343343d28f348735, 0x4dfefce6eea8c5da, 0x125617bcc3151a71,
    0x3093171d54965b75, 0xf9a3a2757bc47553, 0xef97db61fc94f8c3, 0x5eb2549a4594f135,
    0x53d3bbd16a2277e4, 0xd7faf818add89339, 0x1032828f6be346cd, 0x888d2e8f0cc0c6ae,
    0x03f8a82099298ab2, 0xf34b39eb9c96847b, 0x4202e9b64a0145bf, 0x20fc0aef26f3de09,
    0xd13f15ced1ddd5be, 0xb6df7e06b6d29d86, 0x85e669c71ddc7373, 0xa60ddd57fc3bcf6f,
    0x85f9ef0cbfeca114, 0x1e07b7bc0ee87af0, 0xe49aca5dde7c41fc, 0x8f21833cf9426178,
    0x541a42b9360d19d8],
   [0x7930cc5a6e88b122, 0xb720430d72f0f8fd, 0x1b523f34de766ed8, 0x9f3492b4bb8d18f6,
    0x0f0dd17a2e9e1a84, 0x05b554856fe4ed33, 0xe8eb22127bca9950, 0xdb709e6a91094d27,
    0x9542e82f5b431f49, 0xc95b260f0b82d60c, 0xc6e36a7bd8701e27, 0xefedcad1ad8532ad,
    0x9479aedfb9e8257a, 0xc36a8f814a2119db, 0x533e997f7e738a95, 0x0742fdfe914e4f27,
    0x612039e955dc1354, 0xaa2be0bec56087ee, 0x4251ce942e036d66, 0xf7532b04efc03be5,
    0xb07f45b5fb2e090b, 0xa4dded0ef7517ff5, 0xdc54c12f16cf15da, 0x8938c00f0d76563e,
    0x2095c507b3a7f52f],
   [0xd0ada721add663fe, 0x7b022a4a8545d834, 0xda934d0a3936e766, 0x42e8055d0ed8a5be,
    0x81945f2ff400561d, 0x13cae8de9b269fd8, 0x851b4a0fd54d898c, 0x2ff0a92618fe6593,
    0x2fc7c5d876600651, 0xf1b88f2180302c04, 0xfaa4aa9d9ffbab4a, 0x0000da2121d8f706,
    0x69789032d0a02753, 0x80017084a79567ec, 0xefbad12bfa7c713c, 0x957fb0ac409327e0,
    0x4c8baa4b93d204e2, 0xfa54789e245b44c9, 0xb24bc8231983cda5, 0x69ae4bac8766d7d5,
    0xda5a6fc35a9f8640, 0x6e393cbb17bc7e79, 0x3ad944a5f68b90cb, 0x0df1659f378b4ff4,
    0x963aff243d517b3a],
   [0x0bc75ba732ea90dc, 0xe1c0cdb53c859316, 0x279e32875826ee7a, 0x63d318bf7065af3a,
    0x05a02e96f8388858, 0x33db79faeeeeb233, 0xc85db1885ce4e6aa, 0x57c13acb5bc3d650,
    0x863ce1f881c18e96, 0x004b4a694c2fb405, 0x0a8104aada55bb43, 0x9ccdb84386c95fc5,
    0xfec5a0d59b39248f, 0x96a30a08cc1d8c97, 0x9970a427678c48ae, 0x62d8cdacaffc6baf,
    0xd430051da9c40564, 0x69c0f956dfd28f2f, 0xbcb08c7f93a6606f, 0xc4916256e07cc071,
    0x63e047b16bf0eddb, 0x30c92ae3553e8695, 0x2ee3624bf859e876, 0x4270c69016285136,
    0x97d7f3b19f23bdf2],
   [0xe24fdcbba2cbcbbf, 0xe0e81c88a1bbee62, 0x21df15692840ae8c, 0xd3867a31065e96db,
    0x14510aeb82ac2b45, 0x5953b8e873dc0985, 0x6c47a03595266a6e, 0x307e45eb13a7041a,
    0xfcc92ebed8cec236, 0xcc0e7d505e6e2f6d, 0x203b09ee00ecf65e, 0x4ceaa0989ff3654f,
    0xe66c49c91b0d5da6, 0xd6862375f163616a, 0x5a7b4c46a1fd3cba, 0x1f25a9945dfb3ed7,
    0x78ffdf22f07ffd5f, 0x62daa1e88a1f76f0, 0x24ea52ff9b3a19ff, 0x4bce7776cbf43738,
    0xdb5e0a905686ffc1, 0xffea1fbc25a68931, 0xc0edbe3ad882b1bd, 0xa163b48ca4156362,
    0x44db912ba604bae0],
   [0x71de2a2c46ebd426, 0x0bb6698ef47786e9, 0x1191ba78e8b183a0, 0xa452a2406ac53a5a,
    0xa9540177f7d70b98, 0x800b2cc47b82fc7e, 0xfaaf2bf028a4def5, 0x1fbe61f77a03cc65,
    0xed02954bea9571e8, 0x95431b0af0c1b455, 0x3880b8633a96c8c8, 0xcdd4189b0a830063,
    0xd14576e687771e0d, 0x37fa9e681932524d, 0x7a74ec098346631a, 0x813feaf79d775c30,
    0x41e9c95dbc0923ed, 0x09425e872ec00fd9, 0xae31eefcb4f4ee85, 0xec2efb0975ff7ef0,
    0x7787b8b45df3a567, 0xce5aa478995f122c, 0x1e44d28845002c86, 0xf5c304197b590c61,
    0x25537095cd3c60ec],
   [0x3c301041ca545351, 0xdb7387da88d1491d, 0x46acac441421051f, 0x094a42c7a4cf8c26,
    0x78a140594a155fd9, 0xecdb2c85a7622479, 0x0132220f40adcc01, 0x4f041057035ecdf6,
    0x39ee8d4ea8eb3161, 0xcdf1cf4acb7fee61, 0x690fae17074ff083, 0x9d75506c62a0da4f,
    0xbe2a20588a834c89, 0xed609ca8cabee1b7, 0x3f465d7af3d672ee, 0x877f56592efeb9da,
    0x60fb5cae9e9b3a9e, 0x86d87f15eca62e32, 0x7779dc2c88aa7c46, 0x71a31b583f7d39fb,
    0xb1d7843d2c830326, 0x3417a1667eb6eb41, 0xbaf1e6b27bb18c3d, 0xea98cedc9ef13885,
    0xc1b400f05acf63d0],
   [0xa582c90f09f1073e, 0xb39c1b129cb70bf7, 0xb7914d6d455e76cd, 0x49d582ef52d9ca1d,
    0xaa4bc61106552701, 0x98a0990f1f6cae79, 0xf75cfd70cd312c88, 0x61ff99043d13e521,
    0x31614f1f0f9e1569, 0x82704fccd28956da, 0x0e8b89ebae27612a, 0x37a5876fbb06a01d,
    0xedfc896a4d210085, 0x9c5ae77e565b270d, 0x555ed9aa1c56378c, 0x9652eddae130e012,
    0x1af9824d16ef58c2, 0xbc783c6df83d191d, 0x58214248c16ceaa6, 0x58bd305da4351d4c,
    0x70c791d5d25c4e94, 0xda10650890561b92, 0x1f8cb930fd4ee8df, 0x63337ef42f5a7181,
    0x3a178a2c0d906b24],
   [0x3d54399db1b582f6, 0x1bb5619bd0e7426c, 0x54a1cd4cf01a3fbe, 0x8b4665a50efb5709,
    0xb556bfe7ff6953ed, 0x4a80f78cb4224869, 0x6e7684fe851f4b71, 0xb2fb7bea12da8bc9,
    0x276f536d16603f01, 0x230d0210aa794a5a, 0xb5da289dcef954d2, 0x42e94872dc396bb2,
    0x9c483c4af87f6796, 0x18bfb6c2973495bf, 0x9f096e61ca388b4c, 0x47ee010dfef6729e,
    0x6a21401602a6a19c, 0x468c1d111a1a8438, 0x48023b244deb3c8a, 0x74c5a840a7dc9273,
    0x8efdfb4071ccdd64, 0x4efb5d6ca6ea7f8b, 0x4f49c2908b2a48ff, 0xd8c8a94d181285b0,
    0xaf87c56068c8c233],
   [0x6a34e1e1bed3bb3d, 0x5064e9a8891eb1e5, 0xe991aa3125430272, 0xe4a962c4d9f1e687,
    0x6fe84681f8586338, 0x4210eb5da1ad6c92, 0x0b9fc8268b919487, 0x235fbd8b2ef71d48,
    0xd59c24c2db4b8a6d, 0x3f8f2ae518517d8b, 0x6d0dab1e064a9a2a, 0x4c79f1c2dcce9ab8,
    0x9349ce174596ff0d, 0xc98fa5f727f78349, 0x9443bb8d6218ece0, 0x3ecc3bb47cb8a410,
    0xf45b7babe75e9649, 0xcafb9c3dc9a3c6a4, 0x50bd40bde8c50e42, 0x211c3e8acf31fe14,
    0x40fc453b9beec28b, 0x28f8e49dbe02c8f1, 0x6b77534d77a3c04c, 0xa14af94437f0c1ee,
    0x2123a55ff291c892],
   [0x20bcb17e1f595d87, 0x662e1c8125ef1953, 0xcab08754d883a635, 0xeb00f2ac2695b831,
    0x1741710a6f0a57c5, 0x15e908b23d49ae07, 0xef7def92baa71132, 0xeae35eb9fe8ca1d1,
    0x2f3f0f71a867bdef, 0xfc597344420dcd3e, 0x309673b51722cec9, 0xf99b2816c2270e36,
    0xba514dca69172cd6, 0x42cccfa5a19a8357, 0xd6c9219152e14ba0, 0x4ffe73a2f9e4d30a,
    0x21d4a405169f90e1, 0x505d715b65e0d613, 0x368d5daf2be80db0, 0x9ad1ff76e4abb9ef,
    0xde07bd76192e42c3, 0xa9d2d0dd127a15fa, 0xd8d531d31eabef73, 0x654684893ef9fb1a,
    0x8f0c18afa294bc73],
   [0x1b43a0c044144558, 0x981065f5a82c91bf, 0x645ce38651f50633, 0xe088a3165d0f0089,
    0x3e3ac9e205764cb6, 0xbe35103e74a9de46, 0x371d8a4d41ce0019, 0x587a094ce930c438,
    0xc50aa237f9bfdf18, 0x11456156473a7096, 0xa6c762a433632bef, 0x8718f530dca0f6ef,
    0x0feef8fb5664ad3e, 0xb91c53101293edc0, 0x8a22db9a8e648a58, 0xfdf403961f402598,
    0x7c5fe59cdf0d30ba, 0x1035446dc6695122, 0x3dcd266b4f8c65e9, 0xc62411d0eaf00923,
    0x0202fe997ffef92f, 0x59b47e01f467f705, 0x97441587e2e38979, 0xd400a2299ebcbce1,
    0x7a41f49a3c9375f8],
   [0xd755e1cb5e8e4a87, 0xb12c0a2ac23ddbe7, 0x4edb1615bf205975, 0x2f9036869a33a2b9,
    0x9f38ed7091ab0c8f, 0x7a3aa36a9da008c1, 0xdebe66b9740b098c, 0x881435522d9d1fe5,
    0x167c2d0d598fc507, 0x2ec7eb9aa6545ee9, 0x1d5bca3f2e240618, 0x30c82f8e6cecc82c,
    0x059c390f18ffa86c, 0xe99b9165150dd30b, 0x6bdd425188489a3a, 0x496723df054eaa41,
    0x2bbd538acf2a6cb3, 0x7c6788627791d040, 0x20ea2801162c41b7, 0xeb4298cdf060459a,
    0xa31d759c0dd6bc1c, 0xbc20c89a9205919e, 0xd9de9603f3e9e79e, 0x759d8fef0313b876,
    0x2a27dbee9f42d799],
   [0x6dbe1c609528ce0c, 0x8f8cb5174b2569da, 0x266f3e40d748deea, 0x2e3f3585052e09c5,
    0x10d5c56845b9e63c, 0xefd33cf6d5bb43c9, 0xb31efdeb0991d7ee, 0xbefacde684948596,
    0xf18e8bf6f13fe641, 0xb36be188d660a765, 0x067d913e55d71164, 0xb0e5930b9d949958,
    0xfb03337d0f23f831, 0x9a08c7b29f08b8da, 0xb8ff0c21aa502fc5, 0x1ecc0d6fcdf58be7,
    0x29fafd175d611fd4, 0xa1e4c6548dadae18, 0x11ff3d975eb0f77a, 0xcb043914f5ac47c5,
    0x931f852a4ff2793d, 0x4de71f9155fbc760, 0xffb9cc7d80e83300, 0x617a92851f5ab1ad,
    0xe2487044af80c1a4],
   [0x9e430cdad9d90d69, 0x6c8bfc37bf9e225e, 0xcc25f914c42ba453, 0x82dd0d2102610d86,
    0xd543daf9e730d3a6, 0x7c1dec46ef6ec386, 0x888d8847a3aa913c, 0x2b315264c86c2196,
    0xd1a81f176d0baf2e, 0x4fb54a0540d781e9, 0x3fb18092b7a55687, 0x00da4010a21e5f6e,
    0x8571f2a6cbc2f68e, 0x1c0c2ec59faa8ae8, 0x592440c8b9d7c612, 0x424663fc17bf7c09,
    0xbfb4cd08e1e3e8b0, 0xc6c422a5caae8d0e, 0xa947c7b8b15b41fa, 0x9689a39b95892b1e,
    0x29be7aabf581105b, 0xbe5c2d711b1bcd04, 0xa637d54ea7d7d013, 0x4a28777c7a783a0a,
    0x288ecb218501b1c0]]

theorem oneAlias_isTrace : IsTrace oneAliasTrace := by decide +kernel

theorem oneAlias_start : ∀ (a b : Fin 5) (z : Fin 64),
    keyBit 115792089237316195423570985008687907853269984665640564039457584007908834671664 29896722852569046015560700294576055776214335159245303116488692907525646231534
      (64 * (5 * b + a) + z) = ofLanes (oneAliasTrace.getD 0 []) a b z := by decide +kernel

theorem oneAlias_address : ethAddress 115792089237316195423570985008687907853269984665640564039457584007908834671664 29896722852569046015560700294576055776214335159245303116488692907525646231534 =
    0x37fc8b6c53a42bc414f925cc860d6102210ddd82 := by
  rw [ethAddress_trace oneAlias_isTrace oneAlias_start]
  decide +kernel

end Spartan.Spec.Keccak

namespace Spartan.Circuit
open Spartan.Spec Spartan.Spec.Keccak

/-- Non-vacuity and known answer: the circuit on the coordinates of the generator outputs the well-known
address of the private key `1`, and nothing else. -/
theorem generator_address {a : Fp} :
    CoordsToAddress (xy G).1 (xy G).2 a ↔ a = ((0x7e5f4552091a69125d5dfcb7b8c2659029395bdf : ℕ) : Fp) := by
  have hx : (xy G).1 = ((Koblitz.secpGx : ℕ) : Fp) := rfl
  have hy : (xy G).2 = ((Koblitz.secpGy : ℕ) : Fp) := rfl
  have hxv : (xy G).1.val = 55066263022277343669578718895168534326250603453777594175500187360389116729240 := by
    rw [hx, ZMod.val_natCast_of_lt (by decide +kernel)]; decide +kernel
  have hyv : (xy G).2.val = 32670510020758816978083085130507043184471273380659243275938904335757337482424 := by
    rw [hy, ZMod.val_natCast_of_lt (by decide +kernel)]; decide +kernel
  rw [coords_to_address_partial (by rw [hxv]; decide +kernel) (by rw [hyv]; decide +kernel), hxv, hyv,
    gen_address]

/-- C58 fails for small abscissas: for the point of the curve with abscissa `1` the circuit accepts two
different addresses, of which the second is not the address of the key. -/
theorem address_not_unique : ∃ (P : Secp) (a b : Fp), a ≠ b ∧
    a = ((ethAddress (xy P).1.val (xy P).2.val : ℕ) : Fp) ∧
    CoordsToAddress (xy P).1 (xy P).2 a ∧ CoordsToAddress (xy P).1 (xy P).2 b := by
  have h1 : (koblitz Fp).Nonsingular ((1 : ℕ) : Fp)
      ((29896722852569046015560700294576055776214335159245303116488692907525646231534 : ℕ) : Fp) := by
    rw [Koblitz.secp_nonsingular]
    have : ((29896722852569046015560700294576055776214335159245303116488692907525646231534 ^ 2 : ℕ) : Fp) =
        ((1 ^ 3 + 7 : ℕ) : Fp) := MParams.cast_eq_of_mod (by decide +kernel)
    exact_mod_cast this
  have hx : (xy (.some _ _ h1 : Secp)).1.val = 1 := by
    rw [xy_some]; exact ZMod.val_natCast_of_lt (by decide +kernel)
  have hy : (xy (.some _ _ h1 : Secp)).2.val = 29896722852569046015560700294576055776214335159245303116488692907525646231534 := by
    rw [xy_some]; exact ZMod.val_natCast_of_lt (by decide +kernel)
  obtain ⟨ha, hb⟩ := coords_to_address_alias (X := (xy (.some _ _ h1 : Secp)).1)
    (Y := (xy (.some _ _ h1 : Secp)).2) (by rw [hx]; decide +kernel)
  refine ⟨_, _, _, ?_, rfl, ha, hb⟩
  have e : 1 + secpP = 115792089237316195423570985008687907853269984665640564039457584007908834671664 := by decide +kernel
  rw [hx, hy, e, one_address, oneAlias_address, Ne, cast_inj (by decide +kernel) (by decide +kernel)]
  decide +kernel

end Spartan.Circuit
