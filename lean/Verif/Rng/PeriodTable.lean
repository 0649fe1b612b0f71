/-! # Powers of the step of `MicroRandInner::randInt`

Numbers for the proof of C238: polynomials over the field of two elements, the coefficient of the power i in bit i. Nothing in this file is taken on trust: `Verif.Rng.PeriodLemmas` and `Verif.Rng.PeriodProps` check all that is said here. -/

namespace Verif.Rng.Period

/-- The characteristic polynomial of the step. -/
def charPoly : Nat := 0x10008ab6c98793761

/-- The first 65 states that come from the state 1, the newest first. -/
def states : List Nat := [0x99ce58b08d89492d, 0x2c2c727499ce58b0, 0xbb880b142c2c7274, 0xa3c67b0cbb880b14, 0x7958c117a3c67b0c, 0xe9fb2fe7958c117, 0x577e4f6b0e9fb2fe, 0x7dac431f577e4f6b, 0x945b78187dac431f, 0x641c39c945b7818, 0x83fe30bd0641c39c, 0x3dff612c83fe30bd, 0xbde011683dff612c, 0xc2e494e5bde01168, 0x5b7e47e4c2e494e5, 0x6707ef285b7e47e4, 0x27fc30fb6707ef28, 0x6d5853d127fc30fb, 0xfd5166226d5853d1, 0xc114b109fd516622, 0xe6bfb203c114b109, 0x5ea403ce6bfb203, 0x3d85a01105ea403c, 0x5d5acd103d85a011, 0x70282d385d5acd10, 0xc6047d470282d38, 0xf6691b3c0c6047d4, 0xbc62927cf6691b3c, 0xa639d1b8bc62927c, 0xd023978da639d1b8, 0x46226e51d023978d, 0xd2da9a4946226e51, 0xf6d2d7f1d2da9a49, 0xf669a00ef6d2d7f1, 0xfb2ff73ff669a00e, 0xd8b9aa4cfb2ff73f, 0x39d030bdd8b9aa4c, 0x269f921e39d030bd, 0x608cfc52269f921e, 0xb7cbebf7608cfc52, 0x1fb18ab0b7cbebf7, 0x2e4318391fb18ab0, 0xc00fe5a12e431839, 0x9e66fc5dc00fe5a1, 0xb797d8879e66fc5d, 0x10467606b797d887, 0xf7aab55610467606, 0x509373d0f7aab556, 0x32193ffd509373d0, 0x3362af4932193ffd, 0xa3d145783362af49, 0x2137702da3d14578, 0x80c4150c2137702d, 0x6355902580c4150c, 0xc0805b8b63559025, 0x4111d0a0c0805b8b, 0x11110214111d0a0, 0x4040080901111021, 0x40400a8240400809, 0x4040808140400a82, 0x140408081, 0x880000000001, 0x100008800, 0x100000001, 0x1]

/-- The state with bit j only is this polynomial of the step, applied to the state 1. -/
def basis : List Nat := [0x1, 0xc57e60de15701ee2, 0x674354dd87eb2afc, 0xcc277e9644438b50, 0xb3b039daf9489b6a, 0x19a8a27f15025705, 0x5147be97b15cac1e, 0x734a4e64c2bc35af, 0x625849585e095f26, 0x9ac8f8a7560fc1a8, 0x45144fb829bd6296, 0xe10d51a2af4fb0da, 0x90c2cabd75dcb051, 0x42e3c87bc950ba43, 0x7534a24e3f4cfb65, 0xe10d51a2af4fb0dd, 0xcaa8be7e2f7e863d, 0x7623cd07c6b859d6, 0x11d18d74d2742517, 0xfb040113e93f2969, 0x438db1dd51013dc4, 0xa7be0b50cfbd0011, 0x8509b3b0437a116b, 0x67356d2c12301890, 0x9e4605634ea7773a, 0x2d9cf0833aaab68c, 0x51701f60fdda5800, 0xf738acf3ada50fa2, 0xc82d2fcbfe62a63a, 0x230f7bbd37880340, 0x174eac762e89940b, 0x12b00bed24f24382, 0x3, 0x4f8a0a0ea7e91447, 0xa9c5fd66883d7f04, 0x546128d654bdaa91, 0xd4d8e10393a09adf, 0x2af9e6813f06f90f, 0xf3c8c3b8d3e5f422, 0x95ded2ad47c45ef1, 0xa6e8dbe8e21be16a, 0xaf51a28562697599, 0xcf3cd0c87ac7a7ba, 0x231f598b69a9e60f, 0xb14ff4ab061ce792, 0xc724588c5bf1cec5, 0x9f5de6d241d50daf, 0x231f598b69a9e606, 0x5ff169eee9fabd26, 0x9a6457084bc8ea7a, 0x3272979d769c6f39, 0xd04a858a3384cda, 0xc496d267f303464c, 0xe8cab69dc8be3753, 0x4a6c1f6248871a3e, 0xce1ce3a9b1bb034c, 0x6ee5da5f0fd3257f, 0xc515285fb6b740fe, 0xea3883de136cbf05, 0x4806e0efdfca8b99, 0x2b3595545862e880, 0x749c59f06915ae6, 0xa31b0c3d25957db5, 0x72c4538f44aba610]

/-- The power 2^22 - 1: the remainders and quotients of square and multiply. -/
def chainA : List (Bool × Nat × Nat) := [(true, 0x8, 0x0), (true, 0x80, 0x0), (true, 0x8000, 0x0), (true, 0x80000000, 0x0), (true, 0x8000000000000000, 0x0), (true, 0x934c35b2930a8b30, 0x800455966f0a7130), (true, 0x5d3180c0f84e33eb, 0x820e6435238ea34b), (true, 0xe96f56a9a6b1a880, 0x22a30b60b3c95dca), (true, 0x97e3f7d3ee89fe8b, 0xa8872945250f702b), (true, 0x947321e8b70a0b79, 0x822eed8ef3c3fc53), (true, 0xf84b802315f4dd16, 0x82246fde1a11dc14), (true, 0xbee3f3dddb01b77c, 0xaa853022cc8b36d4), (true, 0x3aef4402e2df0e5, 0x8aacac935525eca5), (true, 0x8a74fc6ce8c4ba6c, 0xa88f8b0d0da0e), (true, 0xa55942975e05770e, 0x808c7ba74ad973ee), (true, 0xb4c32c83dfa2c378, 0x882633481a463dd0), (true, 0xd788f64330e948bb, 0x8a24a0837dda069b), (true, 0x7d3204c8515fc3e2, 0xa22fd0603c3e8668), (true, 0x2a915c0c5125070d, 0x2aa34e335549a1e5), (true, 0xd8bc5123baecc23b, 0x888c34fcf893cf9), (true, 0x29e9102f21fffc79, 0xa285df541dc16153)]

/-- The power 2^22 - 1, modulo the characteristic polynomial. -/
def powA : Nat := 0x29e9102f21fffc79

/-- The power 2^42 - 1: the remainders and quotients of square and multiply. -/
def chainB : List (Bool × Nat × Nat) := [(true, 0x8, 0x0), (true, 0x80, 0x0), (true, 0x8000, 0x0), (true, 0x80000000, 0x0), (true, 0x8000000000000000, 0x0), (true, 0x934c35b2930a8b30, 0x800455966f0a7130), (true, 0x5d3180c0f84e33eb, 0x820e6435238ea34b), (true, 0xe96f56a9a6b1a880, 0x22a30b60b3c95dca), (true, 0x97e3f7d3ee89fe8b, 0xa8872945250f702b), (true, 0x947321e8b70a0b79, 0x822eed8ef3c3fc53), (true, 0xf84b802315f4dd16, 0x82246fde1a11dc14), (true, 0xbee3f3dddb01b77c, 0xaa853022cc8b36d4), (true, 0x3aef4402e2df0e5, 0x8aacac935525eca5), (true, 0x8a74fc6ce8c4ba6c, 0xa88f8b0d0da0e), (true, 0xa55942975e05770e, 0x808c7ba74ad973ee), (true, 0xb4c32c83dfa2c378, 0x882633481a463dd0), (true, 0xd788f64330e948bb, 0x8a24a0837dda069b), (true, 0x7d3204c8515fc3e2, 0xa22fd0603c3e8668), (true, 0x2a915c0c5125070d, 0x2aa34e335549a1e5), (true, 0xd8bc5123baecc23b, 0x888c34fcf893cf9), (true, 0x29e9102f21fffc79, 0xa285df541dc16153), (true, 0x10a113ddb26d165b, 0x882e99aa5285ab9), (true, 0x203d2d023fe60188, 0x20099504b68c5c2), (true, 0x3a9440be4f0c81b2, 0x8004ffb3f0c7df2), (true, 0xcd78a836370f5c0d, 0xa88d23b9591b8e5), (true, 0xd7e38676dd4c33e9, 0xa0a76f239cdeb5eb), (true, 0x59b16b38c5a7d700, 0xa22ff8eb4202a942), (true, 0xc519ce6d2987d7b2, 0x22838a712b4b5b72), (true, 0xa350735a024a085e, 0xa027437572b56716), (true, 0x53a72e560c6a504c, 0x880e329a28fd3b64), (true, 0xa0c16d26597c656d, 0x220b8c49d467f82d), (true, 0xf53bf96414551775, 0x8804b0c861bb29f7), (true, 0x6495b44e57662d19, 0xaa271f7202cf839b), (true, 0x4017b38bc809f6d0, 0x2821d30f5749dc92), (true, 0x2d6e1d8e804b3e37, 0x2001174f01db2e17), (true, 0x9ed6586251306276, 0x8a268a194c610dc), (true, 0xee545dcf87dd8670, 0x82ace3e8ee50d958), (true, 0x41e5be84aec8fed, 0xa8ad228e1f2f740d), (true, 0x27f318f2b39ebb47, 0x2003bd53439905), (true, 0xec9db4e48d7c451e, 0x82aee171a7c52b4), (true, 0x5fef581892284198, 0xa8a5824caa79b930)]

/-- The power 2^42 - 1, modulo the characteristic polynomial. -/
def powB : Nat := 0x5fef581892284198

/-- The projection to the part of dimension 22. -/
def projA : Nat := 0x6a1b1117f8eef595

/-- The projection to the part of dimension 42. -/
def projB : Nat := 0x6a1b1117f8eef594

/-- (power A + 1) * projection A is a multiple of the characteristic polynomial. -/
def quotA : Nat := 0xe5821bcbae58318

/-- (power B + 1) * projection B is a multiple of the characteristic polynomial. -/
def quotB : Nat := 0x1e41835eddba11f4

/-- The power 1398101: the remainders and quotients of square and multiply. -/
def chainA3 : List (Bool × Nat × Nat) := [(false, 0x4, 0x0), (true, 0x20, 0x0), (false, 0x400, 0x0), (true, 0x200000, 0x0), (false, 0x40000000000, 0x0), (true, 0x6598d3a9eb19fdf5, 0x200115), (false, 0x74e6976d002e89f3, 0x1411e9de16351e22), (true, 0xd2a2c41f8dfc9dea, 0x2a21e85247c113e0), (false, 0xa2f3c788624f6783, 0x5106ecf6225e93e7), (true, 0x41f42ee82e948f63, 0x880cba85e41b2309), (false, 0xc20f621bf2bc1e34, 0x1001dfa8e86d3351), (true, 0x3bff0379d1b3c463, 0xa00d401c80b3b3e3), (false, 0x11ff5949d0a21bdd, 0x5457d50dbff6ad8), (true, 0x502999d0a752fdb4, 0x202bbe83c8e8256), (false, 0xec68c7ea07b5bdd7, 0x1100865880f2f8e7), (true, 0x6cc82e9cb71826ca, 0xa8a5286b958a00e0), (false, 0xd8cecdd741e558f2, 0x1450fafca16429f6), (true, 0xb1f5586633808356, 0xa285f55dde4a771e), (false, 0xc74b6126d339e557, 0x450355d798b349e3), (true, 0xbbaeb0aa394c05b3, 0xa02f6139a70b39f9)]

/-- The power 1398101, modulo the characteristic polynomial. -/
def powA3 : Nat := 0xbbaeb0aa394c05b3

/-- The inverse of that power plus 1. -/
def invA3 : Nat := 0xe19dc11e548fc8b0

/-- The quotient of the product. -/
def quotA3 : Nat := 0x64a002d99f1eb301

/-- The power 182361: the remainders and quotients of square and multiply. -/
def chainA23 : List (Bool × Nat × Nat) := [(false, 0x4, 0x0), (true, 0x20, 0x0), (true, 0x800, 0x0), (false, 0x400000, 0x0), (false, 0x100000000000, 0x0), (true, 0x59bec1f5e0896c16, 0x2001156), (false, 0xe500c0ced9956cf4, 0x1141c56dd36989e0), (false, 0x12f840823c61c992, 0x5413825700ffea42), (false, 0xbe1278513dc0bbf4, 0x1045dcb183908f0), (false, 0xe9418a5c085303d5, 0x4556034a60a35025), (true, 0xcb6c1b2d4ed37209, 0xa88721edc7f6428b), (false, 0x19ed5b1dfccc919, 0x5047b6299d375c58), (true, 0x99e9ae6aa538b1e8, 0x282bdb5bbfaaa), (true, 0x26007c4b840efa01, 0x8286e8037fc281e1), (false, 0xc817c8048299cd45, 0x4142204b85678c4), (false, 0xe1b7a398a0a58c38, 0x5042a346691ac849), (true, 0xc5cb3d643cfddc9b, 0xa8078f954cb75ebb)]

/-- The power 182361, modulo the characteristic polynomial. -/
def powA23 : Nat := 0xc5cb3d643cfddc9b

/-- The inverse of that power plus 1. -/
def invA23 : Nat := 0xe4021b0c1f9d7859

/-- The quotient of the product. -/
def quotA23 : Nat := 0x483af451ae260dcb

/-- The power 47127: the remainders and quotients of square and multiply. -/
def chainA89 : List (Bool × Nat × Nat) := [(false, 0x4, 0x0), (true, 0x20, 0x0), (true, 0x800, 0x0), (true, 0x800000, 0x0), (false, 0x400000000000, 0x0), (false, 0xcde7597634b90e72, 0x10008ab2), (false, 0x41e218e4b65e2b59, 0x5053f6c6bb86a5bd), (false, 0x8dc829ae602e920f, 0x1001debce57a2b0e), (false, 0x2b9fe8dc693e8244, 0x405378214341d771), (false, 0xa5606bf4c83f8a95, 0x44561fb0b78c465), (true, 0xf8ccf2b3649ac51e, 0x882639ca428fabbc), (false, 0xe970daa3365dae7c, 0x5542d806592af828), (true, 0x20abf72c67892162, 0xa8872befb1e98502), (true, 0x50f8fcabde13432c, 0x800cdd7d8112aa4), (true, 0x1563482f46a8091, 0x2201aeb678727151)]

/-- The power 47127, modulo the characteristic polynomial. -/
def powA89 : Nat := 0x1563482f46a8091

/-- The inverse of that power plus 1. -/
def invA89 : Nat := 0x29ceff7bd3ef390e

/-- The quotient of the product. -/
def quotA89 : Nat := 0x21d304dde09081

/-- The power 6141: the remainders and quotients of square and multiply. -/
def chainA683 : List (Bool × Nat × Nat) := [(false, 0x4, 0x0), (true, 0x20, 0x0), (true, 0x800, 0x0), (true, 0x800000, 0x0), (true, 0x800000000000, 0x0), (true, 0x6f0930daf4dec0d6, 0x80045596), (true, 0xf0191fc8203340a0, 0x28ab55aa0fbd8988), (true, 0xaae86ca6e8ab1a6, 0xaa05167edc3c4ee6), (true, 0xf249d77e113edd3d, 0x888cbc5aefadf5), (true, 0xc44585189039b8f7, 0xaa0d343a21ecb2b5), (false, 0x69476ef73156438c, 0x5012b0e2828a68f9), (true, 0x83f29628329d65f7, 0x2883745301898377)]

/-- The power 6141, modulo the characteristic polynomial. -/
def powA683 : Nat := 0x83f29628329d65f7

/-- The inverse of that power plus 1. -/
def invA683 : Nat := 0xeb756945914185d5

/-- The quotient of the product. -/
def quotA683 : Nat := 0x74d9ab9a9c46feef

/-- The power 1466015503701: the remainders and quotients of square and multiply. -/
def chainB3 : List (Bool × Nat × Nat) := [(false, 0x4, 0x0), (true, 0x20, 0x0), (false, 0x400, 0x0), (true, 0x200000, 0x0), (false, 0x40000000000, 0x0), (true, 0x6598d3a9eb19fdf5, 0x200115), (false, 0x74e6976d002e89f3, 0x1411e9de16351e22), (true, 0xd2a2c41f8dfc9dea, 0x2a21e85247c113e0), (false, 0xa2f3c788624f6783, 0x5106ecf6225e93e7), (true, 0x41f42ee82e948f63, 0x880cba85e41b2309), (false, 0xc20f621bf2bc1e34, 0x1001dfa8e86d3351), (true, 0x3bff0379d1b3c463, 0xa00d401c80b3b3e3), (false, 0x11ff5949d0a21bdd, 0x5457d50dbff6ad8), (true, 0x502999d0a752fdb4, 0x202bbe83c8e8256), (false, 0xec68c7ea07b5bdd7, 0x1100865880f2f8e7), (true, 0x6cc82e9cb71826ca, 0xa8a5286b958a00e0), (false, 0xd8cecdd741e558f2, 0x1450fafca16429f6), (true, 0xb1f5586633808356, 0xa285f55dde4a771e), (false, 0xc74b6126d339e557, 0x450355d798b349e3), (true, 0xbbaeb0aa394c05b3, 0xa02f6139a70b39f9), (false, 0x8f89c7c8a0752877, 0x4547469a2b6c49b2), (true, 0xad97653060e32472, 0x80aed004623cbb58), (false, 0xa30da9b688bc30a2, 0x44534bd860fad2e6), (true, 0x70f1dab9076b918f, 0x880e10398b12a1a7), (false, 0xabd4cd33fa8f27af, 0x1500f5b68977283a), (true, 0xd4b59db53fcf9b91, 0x888eb6eb60bd179b), (false, 0x90c27069bf87d4aa, 0x5112ed4b256a570b), (true, 0x3687750c7044e79b, 0x8204e4cd5c019cb3), (false, 0x69bea9cca523e6c3, 0x5146ab8bea2fcc6), (true, 0x1a43230fca706017, 0x2883ded4b11ec3fd), (false, 0x7ea22c64ca1251b1, 0x1441aa6c5c70124), (true, 0xc23769b85309f097, 0x2aa9cc6316361275), (false, 0xdf4c7af7dcdf9a52, 0x5006a54e6831cb67), (true, 0x56977deda83054b0, 0xa2af74106b13c7b8), (false, 0xf303c72aa433b0de, 0x1114c3a6c8d09b9e), (true, 0xb0a2d18ed25e4788, 0xaa0f14a264c06920), (false, 0xbb869fe5c7497211, 0x450244caf165bf31), (true, 0x929a766ff1d1b19e, 0x8a8e85b41f7e031c), (false, 0xc3bf62b71f447faa, 0x4106630482949cbe), (true, 0xbdf6203b200c28a0, 0xa00fca09d773d728)]

/-- The power 1466015503701, modulo the characteristic polynomial. -/
def powB3 : Nat := 0xbdf6203b200c28a0

/-- The inverse of that power plus 1. -/
def invB3 : Nat := 0xdc214e1dbd727920

/-- The quotient of the product. -/
def quotB3 : Nat := 0x7d5561655372e241

/-- The power 628292358729: the remainders and quotients of square and multiply. -/
def chainB7 : List (Bool × Nat × Nat) := [(false, 0x4, 0x0), (false, 0x10, 0x0), (true, 0x200, 0x0), (false, 0x40000, 0x0), (false, 0x1000000000, 0x0), (true, 0x1156d930f26ec200, 0x200), (false, 0x893a4ad960350667, 0x10119b754009a47), (false, 0x9d1d16771f5a9d5a, 0x40432dad6fd5426f), (true, 0x93b45f18c96a6e04, 0x82a643338534ea0c), (false, 0x1842db7889e27110, 0x410767580dd71100), (false, 0x37d5a897a430cdda, 0x1401a853c3e4f1a), (true, 0xb8aeebc4d68d466f, 0xa2af7698dcd08c7), (false, 0x3735f39d99a55eed, 0x454246b03db67bb8), (false, 0xd3aaf123733f7bb3, 0x5152fb655764d22), (true, 0x7c3100473aad9ae8, 0xa20fd97d1c935222), (false, 0x5fa5cd06cb3bfc64, 0x1550a71401b249a4), (false, 0x8ae3844b2fef19bc, 0x1155c480c7eca72c), (true, 0xa569d460ba212029, 0x808cf98925d962e9), (false, 0xc6e72cf780c243b0, 0x44131ca46632f691), (false, 0x963f77d091e822b6, 0x5016f4c6623f66f6), (true, 0x19154e1ef694e60e, 0x822c4f3a717b4b66), (false, 0x77225945bb927f21, 0x1410b9854b8f395), (false, 0xdfad0873ef301344, 0x1515a411d4dac1a5), (true, 0x3b2989e1c7a5232, 0xa2afdc1744a1c2d2), (false, 0x9d9f558cc032ec6f, 0x5452c4633c3cb), (false, 0x1a44ad96b69dfe9a, 0x4153619ff87631ef), (true, 0xdcea88afe9478611, 0x28835670a63baf9), (false, 0xfef7b284e60a1885, 0x5152fe346fdf4404), (false, 0x85b16efacaedbd0d, 0x5556ddeb7f53bd9c), (true, 0xbfa4a839ff9352cc, 0x8026de9475e9f62e), (false, 0xc14799e0045caeee, 0x455746549ae984fe), (false, 0x490457317fc2526d, 0x5003b0649a19a459), (true, 0xc4769d300a1fa57d, 0x2083110178ca40ff), (false, 0xe412989a9559c30, 0x5012b5e7a9e7fe01), (false, 0x18242d9ba03ad9c5, 0x5412835bb21a25), (true, 0x9ccdf69512a2977a, 0x2801d23833de258), (false, 0x25fd693b137be9f, 0x415270939566ab7b), (false, 0xbef965aed93690a1, 0x411777d360e74), (true, 0x9bc5479d3e2a2f29, 0x8aacae1bc24f158b)]

/-- The power 628292358729, modulo the characteristic polynomial. -/
def powB7 : Nat := 0x9bc5479d3e2a2f29

/-- The inverse of that power plus 1. -/
def invB7 : Nat := 0xdff4d5eb05a31854

/-- The quotient of the product. -/
def quotB7 : Nat := 0x65c21d595e240b41

/-- The power 102280151421: the remainders and quotients of square and multiply. -/
def chainB43 : List (Bool × Nat × Nat) := [(false, 0x4, 0x0), (true, 0x20, 0x0), (true, 0x800, 0x0), (true, 0x800000, 0x0), (true, 0x800000000000, 0x0), (true, 0x6f0930daf4dec0d6, 0x80045596), (false, 0x780c8fe41019a050, 0x1455aad507dec4c4), (true, 0x82aff404d79e37d9, 0x2a81459fb70f13b9), (false, 0xef9561e06d67cfd6, 0x40066ebec4c930b7), (false, 0x5afa7bbaf181cfbc, 0x5457c14c019a19a8), (false, 0x671735ea2bc3648a, 0x1144d5571b88421a), (false, 0x8a348696b79a15cd, 0x1415a9abc6d1bde9), (false, 0xb06da99cef06a65c, 0x40462dd33a9a83ed), (true, 0x3748cb22747959d7, 0x8a04293a8dad3157), (false, 0x6204582fe9f015bc, 0x5153ae7f22ba0c9), (true, 0x40aa6a055f160f2f, 0x2809505987c0a6af), (true, 0x19b3b67d6fe15b7b, 0x20019de9a7940eb1), (true, 0x855ae55edb2d8f25, 0x2829f1c126bea8f), (true, 0x56b13c4d6b29b437, 0x8026761bf4cc24f5), (true, 0xe7b346c5c94226a, 0x22298f65f5abf040), (false, 0x8b6c39de19d8da73, 0x5417c772ecbc17), (true, 0x2efb7dac5970fac5, 0x808e7936a9a4cbef), (false, 0x3af94a1117316cf8, 0x4547569fb1e0089), (false, 0x3d5ae7c2b91a79e2, 0x5447d4c603a3662), (false, 0x77f50c5aa08c2a5, 0x55139eb9976a9c1), (false, 0x830d08c97a704650, 0x1515f5066db921), (false, 0xe40c787523337b60, 0x40072ab032f21e60), (true, 0x40e001f7335228bb, 0xa825041fd862141b), (false, 0x13a9629fc1eed180, 0x1000deb04f355225), (true, 0x307b41b3198e2731, 0x20a99846a017e51), (true, 0x51cbe0719677bdd1, 0xa007e845a242c73), (true, 0xd8b7602b58408f92, 0x2203a4ad78d04b90), (true, 0xaa5f973b24ce3975, 0xa285dfde13c2ac9d), (true, 0x8c35e8627748adc9, 0x888c367445fa5d4b), (false, 0xb0c99a3dde159ed3, 0x40522d7a30b84e52), (true, 0x9593f65df9b95c1, 0x8a04a11e967d816b)]

/-- The power 102280151421, modulo the characteristic polynomial. -/
def powB43 : Nat := 0x9593f65df9b95c1

/-- The inverse of that power plus 1. -/
def invB43 : Nat := 0x7521504d751c8efa

/-- The quotient of the product. -/
def quotB43 : Nat := 0x3c5f9112c1a02e1

/-- The power 34630287489: the remainders and quotients of square and multiply. -/
def chainB127 : List (Bool × Nat × Nat) := [(false, 0x4, 0x0), (false, 0x10, 0x0), (false, 0x100, 0x0), (false, 0x10000, 0x0), (false, 0x100000000, 0x0), (false, 0x8ab6c98793761, 0x1), (true, 0x4d2180137cd84202, 0x808cdbaa00), (false, 0xe99d50def283f19a, 0x10518c1b7d91c7de), (false, 0x2d0f3e476bf237fd, 0x5443c1a418cf64d9), (false, 0xce2fadb56f4aa40f, 0x45120516670af1e), (false, 0xbf9f0a3be99293cf, 0x5056a6ae4b58e85a), (false, 0x8c297ed8079bb284, 0x45574311f6e8dfb1), (false, 0xd2bfe34f94cff5e8, 0x40522c2a7ba57cf8), (true, 0x1208365aa5701967, 0xa20ddb4e5890bdc7), (false, 0x284184de5f2d6d98, 0x10408c987539c6d), (false, 0xb2a993008835fc8b, 0x4403087b2e7cb6b), (false, 0x49254260473087c9, 0x450644ad4fd2c10c), (false, 0xddcd877f169548e2, 0x10418c819fd02103), (false, 0x8bf50f0ecba1ff76, 0x5153fa29e6aacfb2), (false, 0x9823704fab2733ce, 0x40477dd87184651a), (true, 0xb67fd7eda39d6883, 0x8284489fcfd55a8b), (false, 0x6f63cacdad58e308, 0x45161531457536ed), (false, 0x83c327ef69ad2b3a, 0x1455be91f88e54ba), (false, 0x608f027e4a5b8d1b, 0x40077ae6945c157f), (false, 0x729903cdc9e7361c, 0x1400e84956dc4139), (false, 0xfc0dff0ccb35f357, 0x1504e1d4deb35a27), (false, 0xf30ff5f8c9e117a4, 0x5552888f4bc70fd1), (true, 0x67201ac79773fb13, 0xaa0f14026b886c93), (false, 0x22189d7d4fe5f3af, 0x1415acbee823b36a), (false, 0xe706bf5c6884543f, 0x40423ce5419f9aa), (false, 0x4900f37fd0025743, 0x54178261b9b16f56), (false, 0xf92623f4812fb8ae, 0x10418890f8fd8a0b), (false, 0x70dea6f4379b229f, 0x55438c4823d8b06b), (false, 0x9cca356307af5b96, 0x1500f1e3bc015763), (true, 0x66d75d36d588b1f0, 0x82a4e10d8b83d6d8)]

/-- The power 34630287489, modulo the characteristic polynomial. -/
def powB127 : Nat := 0x66d75d36d588b1f0

/-- The inverse of that power plus 1. -/
def invB127 : Nat := 0xad7f25c1f9b32784

/-- The quotient of the product. -/
def quotB127 : Nat := 0x3d6a8fce25403ea5

/-- The power 13050583119: the remainders and quotients of square and multiply. -/
def chainB337 : List (Bool × Nat × Nat) := [(true, 0x8, 0x0), (false, 0x40, 0x0), (false, 0x1000, 0x0), (false, 0x1000000, 0x0), (false, 0x1000000000000, 0x0), (true, 0xbc2c68074b023439, 0x200115659), (false, 0x80f3ae46c8f58127, 0x4552063ce5957b26), (false, 0x55d87221492f03a1, 0x40027fccf9874034), (true, 0x3892d08e094bb3a9, 0x2223a7b28e45b90b), (true, 0xaed9b329f2180fdd, 0xa80d2564fa33a7f), (true, 0x334ad63518e70146, 0x88acb74d7c878a64), (true, 0xbc2f39cd31575e8d, 0xa0a74d2832bcc45), (false, 0xdb9090c59ad122ff, 0x45520639f4beaeee), (false, 0x1fdb8bfadb619ffe, 0x5147ebd07970280b), (false, 0xd7a14593f6463a98, 0x1555b66b82eb14c), (false, 0x6146cfa218689353, 0x5117ec717b96c1b3), (false, 0x2eac26236f808eb4, 0x1401b8020ff8f6d1), (false, 0x27f6dec9eeebd87a, 0x454647c68e294aa), (false, 0x945f4ce47586b34b, 0x415771addaa952f), (false, 0xb535f6ca9fbce26b, 0x411233bf39558e6e), (true, 0x1181a6116a7cb397, 0x8a260abf9ca238fd), (true, 0xc759eafb67bca8a9, 0x2029141d24ebf23), (false, 0xa5244d03e8c54d28, 0x5017b1989b4b6509), (false, 0xf0d21744ed5c8ac1, 0x44130cf5af6bdde1), (false, 0xe39ec933da0d4fe6, 0x5502db78cc2753c7), (false, 0x65fa8f8c0d7e82a8, 0x5407c3a93e22ea3c), (true, 0xffcfadee2dbf96a1, 0x2823fbb55eb29141), (false, 0xd6d0b647a8629fd, 0x5557d8a3fd07297c), (false, 0x8a8b292fc8659e8c, 0x5116f97825003d), (true, 0xc11569e9e4fbd60b, 0x808cd108f916340b), (true, 0xb0e376ee5d2524de, 0xa00742c09a40c7d4), (true, 0xe4a8684c59232eff, 0x8a04a9967f918a77), (true, 0x7720e495b31f3d44, 0xa8258c3bcbb863ae)]

/-- The power 13050583119, modulo the characteristic polynomial. -/
def powB337 : Nat := 0x7720e495b31f3d44

/-- The inverse of that power plus 1. -/
def invB337 : Nat := 0x58e09bc88e0f1007

/-- The quotient of the product. -/
def quotB337 : Nat := 0x192b75f43769211a

/-- The power 811597437: the remainders and quotients of square and multiply. -/
def chainB5419 : List (Bool × Nat × Nat) := [(true, 0x8, 0x0), (false, 0x40, 0x0), (false, 0x1000, 0x0), (false, 0x1000000, 0x0), (false, 0x1000000000000, 0x0), (false, 0xde1261b5e9bd81ac, 0x10008ab2c), (true, 0xc07d829528465b23, 0xa2ad56a83ef62623), (false, 0x5574365374558d30, 0x5002b528187f9dd5), (true, 0x938df208652fb3fc, 0x22232f16bbeb7d7c), (true, 0x3daf2935c940f9c4, 0x820ec432c343cae4), (true, 0x7205972f88f843dd, 0xaa2d9f087b8441d), (true, 0x1ecc616761704a97, 0x2a09410d7ec29cd5), (true, 0x5a75db8851a05b1e, 0x2a8b4f69e9e6eb4), (true, 0xeec8e91c744a1b5a, 0x22892a00ef960d32), (true, 0x5a26a8eb9c759fc4, 0xa8ada02ad48b13cc), (true, 0x4cb5c1ab461b0226, 0x2289080bc1faa946), (true, 0x4f43f7e472148301, 0x20a19a03c8acff49), (true, 0xd0fc87488be65c88, 0x20ab307ad817314a), (true, 0x4a839f47d2dac65e, 0xa205fb003ce6889e), (true, 0x46a0c65fc6c1cbf8, 0x2089917b83a76750), (false, 0xe276d886dbbec1c2, 0x1014ce188beee242), (false, 0xa02f83bd0b447817, 0x540697e314f0fbb3), (true, 0xdd7da966921315d6, 0x88041865c9b9937c), (true, 0xb15449cbf0106c35, 0xa2a77e57c4648dfd), (true, 0x5ee63a9bd298e547, 0x8a0623a923ba5585), (true, 0xe3fb2cb7b027c4fc, 0x22a9a91b669ef196), (true, 0x53eb427459861a62, 0xa80faf71855a9e02), (false, 0xcec806fdd9231c93, 0x1105d6747671e6b7), (true, 0xb0fb2820e599992c, 0xa0ade5731ad41c66)]

/-- The power 811597437, modulo the characteristic polynomial. -/
def powB5419 : Nat := 0xb0fb2820e599992c

/-- The inverse of that power plus 1. -/
def invB5419 : Nat := 0x1ad96612ff62a2f6

/-- The quotient of the product. -/
def quotB5419 : Nat := 0xf93a51cfb949b7f

end Verif.Rng.Period
