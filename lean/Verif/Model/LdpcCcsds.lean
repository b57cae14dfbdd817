import Verif.Model.Encoding

/-! The LDPC codes and the decoder of `labrador_ldpc` 1.0.1, the value of the parameter `Ldpc` the program runs with
(lib/sia/rust/encoding/Cargo.toml; calls in encoding/src/lib.rs:72-90 and 116-128). The crate's source is not in /repo: the parity-check
matrices and generators are those of the standards the crate implements (CCSDS 231.1-O-1 for `TC128`, `TC256`, `TC512`;
CCSDS 131.0-B for `TM2048`, `TM8192`), the decoder is the bit-flipping decoder of its documentation. -/
namespace Sia
namespace LdpcCode

/-- Size of the circulant blocks the matrices are made of. -/
def circulant : LdpcCode → Nat
  | TC128 => 16 | TC256 => 32 | TC512 => 64 | TM2048 => 128 | TM8192 => 512

/-- Number of blocks of bits, with the bits that are punctured (computed but not transmitted). -/
def blocks : LdpcCode → Nat
  | TC128 => 8 | TC256 => 8 | TC512 => 8 | TM2048 => 20 | TM8192 => 20

/-- CCSDS 131.0-B, table of the permutations: `θ_k`, `k = 1..8`. -/
def theta : List Nat := [3, 0, 1, 2, 2, 3, 0, 1]

/-- CCSDS 131.0-B, table of the permutations: `φ_k(j, M)`, `k = 1..8`, for `M = 512`. -/
def phi2048 : List (List Nat) :=
  [[16, 103, 105, 0, 50, 29, 115, 30], [0, 53, 74, 45, 47, 0, 59, 102], [0, 8, 119, 89, 31, 122, 1, 69], [0, 35, 97, 112, 64, 93, 99, 94]]

/-- CCSDS 131.0-B, table of the permutations: `φ_k(j, M)`, `k = 1..8`, for `M = 2048`. -/
def phi8192 : List (List Nat) :=
  [[108, 126, 238, 481, 96, 28, 59, 225], [0, 375, 436, 350, 260, 84, 318, 382], [0, 219, 16, 263, 415, 403, 184, 279],
   [0, 312, 503, 388, 48, 7, 185, 328]]

/-- The parity-check matrix of the rate 1/2 codes of CCSDS 131.0-B: rows and columns of blocks of `M` bits, 0 for the identity and `k`
for the permutation `Π_k`. -/
def prototype : List (List (List Nat)) :=
  [[[], [], [0], [], [0, 1]], [[0], [0], [], [0], [2, 3, 4]], [[0], [5, 6], [], [7, 8], [0]]]

/-- The same matrix in blocks of `M/4` bits: `Π_k` takes row `i` of quarter `j` to column `(φ_k(j) + i) mod (M/4)` of quarter
`(θ_k + j) mod 4`. -/
def expand (phi : List (List Nat)) : List (List (List Nat)) :=
  prototype.flatMap fun row => (List.range 4).map fun j => row.flatMap fun terms => (List.range 4).map fun j' =>
    terms.flatMap fun k =>
      if k = 0 then (if j' = j then [0] else [])
      else if j' = (theta.getD (k - 1) 0 + j) % 4 then [(phi.getD j []).getD (k - 1) 0] else []

/-- The parity-check matrix, one entry per block: a list of shifts. Shift `f` in block column `b` means that check `i` of the block row
contains bit `(i + f) mod circulant` of block `b`. -/
def matrix : LdpcCode → List (List (List Nat))
  | .TC128 => [[[0, 7], [2], [14], [6], [], [0], [13], [0]], [[6], [0, 15], [0], [1], [0], [], [0], [7]],
      [[4], [1], [0, 15], [14], [11], [0], [], [3]], [[0], [1], [9], [0, 13], [14], [1], [0], []]]
  | .TC256 => [[[0, 31], [15], [25], [0], [], [20], [12], [0]], [[28], [0, 30], [29], [24], [0], [], [1], [20]],
      [[8], [0], [0, 28], [1], [29], [0], [], [21]], [[18], [30], [0], [0, 30], [25], [26], [0], []]]
  | .TC512 => [[[0, 63], [30], [50], [25], [], [43], [62], [0]], [[56], [0, 61], [50], [23], [0], [], [37], [26]],
      [[16], [0], [0, 55], [27], [56], [0], [], [43]], [[35], [56], [62], [0, 11], [58], [3], [0], []]]
  | .TM2048 => expand phi2048
  | .TM8192 => expand phi8192

/-- The entries `(block, shift)` of a block row. -/
def entries (c : LdpcCode) (row : Nat) : List (Nat × Nat) :=
  ((c.matrix.getD row []).zipIdx).flatMap fun e => e.1.map fun f => (e.2, f)

/-- The bits in check `i` of a block row. -/
def check (c : LdpcCode) (row i : Nat) : List Nat :=
  (c.entries row).map fun e => e.1 * c.circulant + (i + e.2) % c.circulant

/-- All parity checks (`iter_paritychecks`), each as the list of its bits. -/
def checks (c : LdpcCode) : List (List Nat) :=
  (List.range c.matrix.length).flatMap fun row => (List.range c.circulant).map fun i => c.check row i

/-- The generator matrix in blocks, as printed in the standards: for each block of data bits the first row of each parity block, first bit
first. (The crate stores the same constants.) The numbers are computed by tools/gen_ldpc.py; `codewords_satisfy_checks` in
Props/LdpcProps.lean proves that they belong to the matrix above. -/
def generator : LdpcCode → List (List Nat)
  | .TC128 => [
      [0x0E69, 0x166B, 0xEF4C, 0x0BC2],
      [0x7766, 0x137E, 0xBB24, 0x8418],
      [0xC480, 0xFEB9, 0xCD53, 0xA713],
      [0x4EAA, 0x22FA, 0x465E, 0xEA11]]
  | .TC256 => [
      [0x73F5E839, 0x0220CE51, 0x36ED68E9, 0xF39EB162],
      [0xBAC812C0, 0xBCD24379, 0x4786D928, 0x5A09095C],
      [0x7DF83F76, 0xA5FF4C38, 0x8E6C0D4E, 0x025EB712],
      [0xBAA37B32, 0x60CB31C5, 0xD0F66A31, 0xFAF511BC]]
  | .TC512 => [
      [0x1D21794A22761FAE, 0x59945014257E130D, 0x74D6054003794014, 0x2DADEB9CA25EF12E],
      [0x60E0B6623C5CE512, 0x4D2C81ECC7F469AB, 0x20678DBFB7523ECE, 0x2B54B906A9DBE98C],
      [0xF6739BCF54273E77, 0x167BDA120C6C4774, 0x4C071EFF5E32A759, 0x3138670C095C39B5],
      [0x28706BD045300258, 0x2DAB85F05B9201D0, 0x8DFDEE2D9D84CA88, 0xB371FAE63A4EB07E]]
  | .TM2048 => [
      [0xCFA794F49FA5A0D88BB31D8FCA7EA8BB, 0xA7AE7EE8A68580E3E922F9E13359B284, 0x91F72AE8F2D6BF7830A1F83B3CDBD463,
       0xCE95C0EC1F609370D7E791C870229C1E, 0x71EF3FDF60E2878478934DB285DEC9DC, 0x0E95C103008B6BCDD2DAF85CAE732210,
       0x8326EE83C1FBA56FDD15B2DDB31FE7F2, 0x3BA0BB43F83C67BDA1F6AEE46AEF4E62],
      [0x565083780CA89ACAA70CCFB4A888AE35, 0x1210FAD0EC9602CC8C96B0A86D3996A3, 0xC0B07FDDA73454C25295F72BD5004E80,
       0xACCF973FC30261C990525AA0CBA006BD, 0x9F079F09A405F7F87AD98429096F2A7E, 0xEB8C9B13B84C06E42843A47689A9C528,
       0xDAAA1A175F598DCFDBAD426CA43AD479, 0x1BA78326E75F38EB6ED09A45303A6425],
      [0x48F42033B7B9A05149DC839C90291E98, 0x9B2CEBE50A7C2C264FC6E7D674063589, 0xF5B6DEAEBF72106BA9E6676564C17134,
       0x6D5954558D23519150AAF88D7008E634, 0x1FA962FBAB864A5F867C9D6CF4E087AA, 0x5D7AA674BA4B1D8CD7AE9186F1D3B23B,
       0x047F112791EE97B63FB7B58FF3B94E95, 0x93BE39A6365C66B877AD316965A72F5B],
      [0x1B58F88E49C00DC6B35855BFF228A088, 0x5C8ED47B61EEC66B5004FB6E65CBECF3, 0x77789998FE80925E0237F570E04C5F5B,
       0xED677661EB7FC3825AB5D5D968C0808C, 0x2BDB828B19593F41671B8D0D41DF136C, 0xCB47553C9B3F0EA016CC1554C35E6A7D,
       0x97587FEA91D2098E126EA73CC78658A6, 0xADE19711208186CA95C7417A15690C45],
      [0xBE9C169D889339D9654C976A85CFD9F7, 0x47C4148E3B4712DAA3BAD1AD71873D3A, 0x1CD630C342C5EBB9183ADE9BEF294E8E,
       0x7014C077A5F96F75BE566C866964D01C, 0xE72AC43A35AD216672EBB3259B77F9BB, 0x18DA8B09194FA1F0E876A080C9D6A39F,
       0x809B168A3D88E8E93D995CE5232C2DC2, 0xC7CFA44A363F628A668D46C398CAF96F],
      [0xD57DBB24AE27ACA1716F8EA1B8AA1086, 0x7B7796F4A86F1FD54C7576AD01C68953, 0xE75BE799024482368F069658F7AAAFB0,
       0x975F3AF795E78D255871C71B4F4B77F6, 0x65CD9C359BB2A82D5353E007166BDD41, 0x2C5447314DB027B10B130071AD0398D1,
       0xDE19BC7A6BBCF6A0FF021AABF12920A5, 0x58BAED484AF89E29D4DBC170CEF1D369],
      [0x4C330B2D11E15B5CB3815E09605338A6, 0x75E3D1A3541E0E284F6556D68D3C8A9E, 0xE5BB3B297DB62CD2907F09996967A0F4,
       0xFF33AEEE2C8A4A52FCCF5C39D355C39C, 0x5FE5F09ABA6BCCE02A73401E5F87EAC2, 0xD75702F4F57670DFA70B1C002F523EEA,
       0x6CE1CE2E05D420CB867EC0166B8E53A9, 0x9DF9801A1C33058DD116A0AE7278BBB9],
      [0x4CF0B0C792DD8FDB3ECEAE6F2B7F663D, 0x106A1C296E47C14C1498B045D57DEFB5, 0x968F6D8C790263C353CF307EF90C1F21,
       0x66E6B632F6614E58267EF096C37718A3, 0x3D46E5D10E993EB6DF81518F885EDA1B, 0x6FF518FD48BB8E9DDBED4AC0F4F5EB89,
       0xBCC64D21A65DB379ABE2E4DC21F109FF, 0x2EC0CE7B5D40973D13ECF713B01C6F10]]
  | .TM8192 => [
      [0x616DB583006DB99954780CD6DFC9908772D8260D390B1D462A8F62DE8809216194BE0531EE408AEAF27F50F3AD71865AC7910EEF8824A858CA7B13FC843DAFB1,
       0xBA3E0B010860D09066A8632E2B273DABDF90C26FCDD989C2831874EA7FBA23D940A294111C1B0C1CF62F56A376B94CF64FA594B987B19226E525704D7F2BC66E,
       0x226C671C22A59AC062490596EB1536C9F66AE799C2489FAD2C131E29ED64A25CB0ADC88D04C5EC8FECD7F78B3825E626858CFAA0DE77772CE8822C7AA39628A0,
       0x123B1C426E2A93366D067D26DE51362EA0BA916EBD1229521B1B044459B325785F3F3E24199B2460151E4CAA9FD26A5DC46BE0D6DA907EFAF38F413642F702F5,
       0x324AFD5D62F4CC251FF5C0FD95DE0FAB061F0C92CA5BC97F976118AD84E0663A3BF1B4F07D1CCCC2DF9E09D506B073DED87CC0653C944FC7D438223C0DF3EB67,
       0xE62AE13F8D4000D616E814045495F6E969C473B059386F5DDBCC25F4002EB132D73A98414D85346F55DEBFF875F7CB9D2466A412D180E0A1ADA18D281376A671,
       0x8EB0FB6BB7B9AD2A2132010511077F6BD424B6F5B578C11D0076B781930F755EBB72C41ED17519476C257C31C3159BF31FADA2755F1B8A23B22D6A428AA290E2,
       0x54CC73C7599AB67C6807C4286BECF8423F3216EF04E1B6DE61349DDB23E3A0EB0EF70C5BE1AD91D31B0BB532C1098DC619BF80F3853EEA357091C05D95170A7E],
      [0x5E6381A718C0A817F8101ECDCDBF825E732E4356CEC42C222DBC476BD704837C382B7FBF282B739EDC22B5EEA2909F0EB3ACB9E41FE2AC791130A36A9CBFC1D9,
       0xD4F8DE28FA77F37E4A6B5A82A58CE917CA74C8397E9DB8EDCB2BF65DB91954457707FE876DFF812D4B99466DF479A00114F27E702249DB3E9311301E9CE98703,
       0x74FEAD0013FD861D67D7CE69D3635ECC6266E862D08B63077B45D3098306EA74159DAEA2263E58705EA5ABE58B7FD41862B9EC1D0F1BD47CD6CB42739C24F7FE,
       0x7ACFF6D64C8E8F94BEABE280CFDCFCFB26AC7330073C25E0313DCB75E6C5261F15D82AFA665F73A4B4DA4E5D1648EAB051EDEB9857C13C2F019FCBBA4F9DF2E1,
       0x9CEFF1147D792C14AA2E211C3B9B94B2C9F24F49B0B1ED6E200C88D743F5AC1EE283C3A0AC79B9F1F496BDE74A2AA591ACF2F526FB24413A58B495F91905F596,
       0xD8F1469BCA9CC5041C50F1FB479CF2680503AD85BA2C0C6D01D2D739F3129315E49A9F57236D9585CC0B8A9B4BFE9ADCD97BED9006C33976ACC00468693D56FA,
       0x1EE66371B0EA6C4E1E172C2C5D76806CB7376B8CDEAD96B14A1EC2B656298B9425EA2F0671082D70AA23C267D1F215C59239AEB40186DF0AB284625DC6BAF45E,
       0xFBFBE26BED98BB3B697764A6F82C94039CBF14CB538A7D87801ACBD3A444A858BB74F0A4707592EE6B7DC6D21B8F6B4A184B567C8AA4CD825EBF7F1EDCE015A5],
      [0x25453670647D23C5E445A705953F3BF4A5AF02E7BC46C969C8141D8782F171C9CFF7EBB20945DE5D363AD36D3BD5A0BA081C079CDD04B6E5968187C8A665344A,
       0x23E9B1897A6FDF427B5E910AA8D71F9CC6351474BC4563C20FD38953295D3BA15E7D1010503B7BA1C148251DB8A88AC64E6AF8C1CC056E4EEF1C927FEC40C35D,
       0x57140969483D9E33429FAFD177D031A43B727CF832C8DFFE8D8960CB55BE4BE27B69CC26F2FB731B53250D6F8EE7DFDA98812B9AAE9C02AE2FEDEA598D6B6E2F,
       0x22B6CCA50541BD9F5D48565E551B310E10A0DFCB8035A5EC86EB9CD8C811CDCBCCCEC3732EF93EE8C9418E25CA5744E07C45F9B161E277BCECE388B9B84AAEC4,
       0xDA37FE277C72CB5CB1BE92AD373867403E46B3535159687ADC79C39DEF7005C1F11F1CBD5F8877DA66AAC156EF27BB893F5F1132336D52E8AEB60EACF9BEB3CF,
       0xD204D92DFA496DAF564272E3FEC51CE53C8F2DF6ACB191E60E14CDEA28FD5ED0EBE09672ED11A3F6466FE3A967A4EC8390303059AE00DD83102A9F33B2943E4E,
       0x6E56928E7FEE3333A36FF3EE7598744CF7C298FEF3EACC7CCC0F36DCBA6D87BDD441081163A65E27C958AF79C33A98B81814015E77F82EF5120FBDAB540893B4,
       0x7BEB68CC37F23835C91F5D36D6BA6F0A5E68FEBB6E6A2F247EB5CF57684D0770249460788DFDC4A1218652BF881B4BB06308EF86484E7070AACC72D3977CF5D0],
      [0x6230DEF1ACD4425F7B155A2A285CB2A32CB9D46DA09B28167826E77AEBD85F0C416595E136184841451F5B3E1F17D02C3DB32C2AF50091D6376406D8CB78A9E3,
       0xD3B19911ACC450679EAE25B0F290FF372300F1A4BC91A43CB79DB270133D41DC4970F1420E71C0F816EF938C3C17F0FCBB6E920ED853EAF6D2DC6792BF87098A,
       0xB94C2E5DDE78C974AD6F423CD5ACA01EC9420AAF3FE83BEC31D47AACD3D62FA2476C38595BD66639368181E75B44BAA7ADBC2B42E1D82D7A59312BB9A16F7D35,
       0x0B13B44D828071E69DD90DCD9B713A05FD8C21AA5E6E6D8DA49A5C3B34F98A4E5E822513F0DA200235C65BFCA1DC2CE4AB21D146B778F6806680B8AC75285760,
       0xFEF66B861AA67C768A76D585DFADC8EB6556AD841DEA9F44ACB42B6016142B6B69F1833474FADEB0400CE4D9F3BD62AD96E57F3E93DD229180F2D4B5E77D098F,
       0xEEBE2DFA4D4D86ECB07EEE9565FB589855E1F53BA1B9784A8D195A0E3721551270089C535216636FBEB4D9E50A9EAC3DCB27891A7005A2AD87427E6B8326F6B3,
       0xCA225C7B2A9EABFFDDDBC130B5342917848B029917BA98FFD6EF2389006A6B417F678C61458EF625C96C0D3D07945ABB9836CF80823EB6244D86D114CC5DC2B1,
       0x94F5D55C398B16A71497C4CF102C2F1035C19D5DFC8A301B8DE33D41D909C15A3093B09E7489CE6AA14B331B70E76637FE6DDFFFA6DC4C510371CB0D2A6EA3DA],
      [0xAC5F866DD75CD4C2D5959AC37DE4E1E870313A5B2902F234CD939FE39F31FEBF8B46DAC906E3EBA9C3A74DE46E7A9140D3716667BB1EC22A87D5F8D048BDC5BA,
       0x57B6024327CDDFF3296BE6508C48045B71FA519156F8C125F4E3B7356576F32C63BC588908C4E8B3F9F2D12A9E8F35B6FCF296C17FD8E8D076406FA11D16175F,
       0xCC45AE82D672979E8A0A359B2328C79AE61F87EBE04DAC9343030548659732000CE627417B3F8CFD4A992E7F2B680216AF773385B9337E1743D43FD965282CF5,
       0xAE71B0CAFEB4DA3E0B95F1341667C519FB9F89D7CEC711E57485F04A965CDC832CBEC0BE1B2A3E23B5EAF4C5DAD8767E054B2225A60B88BE1DB6A35E0BAEB237,
       0xA206BC721B252D52EA1F8E311203DFF0AE8D65BD1986055701A3C7FEB2DDEDD2D57C3BBA6A2BC56A9157677D7B48AD2907927176F6B22E8A92F6E9863C9E16D9,
       0x11B6209E06EFE6ACBBBA2214EF5AEAB9D76645476B2C16B8D14E1AE3F3A85188835922B914D3F32FE05B7987A2516B3D3C8983AE176DFD04349A45359B422E1E,
       0x01CC2266F2B68A4323F8931D7AA37B1CBD70DC2FEE91592327207AA6121795150A0DC918704A1A293778FE75A99FDCE77E820D0905EF7AC72A682F2487A6E0FE,
       0x03F42D94FDE1C13F958DF61112DB4A27A8A8EF35087FD089729F0864C2706CCB2B6CBD91A9A7B7B31E08EA3570A6E1BED495FC84FACD829F3234B1D1DC574B67],
      [0x900AA496432959141795C615CBAEA98002440A0D447EF990435E452CC690203BDEBCBA3EEFC7A7CE71EB54B1728AEA9EDE70A7E6A1A8AE86168709A899738CCB,
       0xC5B7A094AEBEA8EC95A414A8DE5D3DBE6745CB0D330B78435AC2BB6666BB2D43A19EAD3B3D9536D0BB92DB949570981C22805E7DEA452FA649C84EDC4324A7FB,
       0xE6A9CAF4EE48400720B8F84CAC3A42483B7E571846E2A5F77A983EE311179CEC2D99878FF5AA06ACA0CBBA63B36985E0970761E7F837650BC46C9A2EB1AEFA95,
       0xAC4D8AA5C970BB55FDF3408356C9EB2683B6FEE593736B66B49C055BD6503EEF3C7CADD15C9B86DCA626E1ABF4B971D04C0A9A5AEF8305C3D0E4CC02C32FA91E,
       0xD8949EF8FEADF7DA39D395B52D2779A0B305C4FD10C33A434878967D9321B4835C035CA5802C37F6DC1E39AC30337253114176BBB26576317C72E9548F179A5A,
       0xA200FC35B6A0934D57543A60F6114B7B0D78D8DD8932538E545D806A1D9E47390F092501F4A470CF7B1F9144D0A8F1B0C3D607930A75E5A150233DCEEDB4C10B,
       0x217C8EB38D4D2A0EF12557321D504ECA670B41E496441FDE341F0232101D4E3F4158FF6F4EAECC073AA811DD450F528BC6095868B7BF953926056BD409E5FE36,
       0xB82831B150B80A736D6CF7B16660ADCD5E1F4DB96E36E33DCC2F1506C7B8B0F2A4EC362FB0CF7B8B3B08D6CD1AF7440729D4C3C02627AD8733A0C94B2EBAF526],
      [0xFDB4463E6F8FBAF565B1C3320F5704A87309E529842378ECB733784F1CBD85F4F87FB0525C7C4D307061F74DE2FB3BDFBC77E04EAB75A64FFE51203AB925E807,
       0x1D1101A16A2C41DBDCA94C128560BEFDA4ECA6F22B44C6E5085A23F84106E4FD870FAA789E03FC37086E67B69FC8EB6421AA57FBA27866DFF712D5FEDA21FC51,
       0x76EE3CB2C4A8629C20FC646A7ADF2A4BE73DCEF53FC926067EB9964996BCEE403C5642CD2F8084E0C14D3627FAD9F0180DADF07331246C007F3AF95CC9B451CC,
       0x3638887EB493F5EE3361F07E00F115BC04AF404BE6BA3467322B37A8E6ABF47710D56C3BC751892CFD12F29CC4319D0562005562D05261D39FDF528A11E65BBE,
       0xA0BF07C52E9A9ED7AC3F0FB9196A450E162009509F20BEE74FCC6316BC4824D93CBAC25E470A7468A629EB520E980DE31F8C8873F4ED21B57AAEBF43A5754359,
       0xCD089ABE548975678C2123223CF3F345AE0CECF0A3726BFBB130E34169A874B6C4CDEFC0A05D7DA1EE475E5407F1535399086700874C13000E2EE21DF3EEFB65,
       0x4BEF6F2B4137DC6EF197D514E904B8F31BAD6C846D6BD7D7480F4818C3C57B4C7F53F168E48020273702071EE48EC53422C71C90AA0262982B82BB6FF3100D8A,
       0xEB3E8F033DA73FA82B3B93E50C60E5936A07D3218946588D0EFB39E1A55C0FB9DBA87DA50C4697EE2ED72B004301019E595B92A2F55F7F1B37C2030B79057F52],
      [0x59CA13359E16B10A7F8778BBAF5D45E32C643B524022FE777A8F557C14141D638E84BC4DBB1CE5866CD0B89C1CC5C6F7BF7E25D2B4FC28A16E67CF8BFAC4F4BD,
       0xA612F30067700487B6584B1AD578659FC2B7443228B2B7B443882DABBF55739CB9660F530631A2CFDCBE94D21692CAC01DA9EB5048FFF17BC4FB5957E8C9DF1F,
       0x29E0573D85359FB7924AABBDDDCD26F5740FFA6824FCFCBD53BF1DFB587E0667641DD3F82962F5E6EA26461279B0F69479645462983DBBBCC544DA90255121EA,
       0xA97C7B71923F0382DF60C9E34D84CAC289B578899EBCF924F4304B80581C9887B1198F074143DCC4324D7DF301466AC97903E688DD2E9186EDD2D90C34202AA3,
       0x90815D489B715FF604788F335322DF5C8856FD85F753785A96F4B2561990F458C69D3F99A8ED1BE99C3F5A14B19B37AC729B3F35ABF52006E814B597145FA3FD,
       0x86A5A2038BB67CF8225BCCF7A587E0D09B47D26BC4DB017F6A77B6DEC5AF5B117E399D8A336358D4AABE9C8E7EAAF6447638F2DC66EF65C100D06EE202013042,
       0xAD845A43D23E66FBA72D9D56457D66C7E44D98ED1E5F1D063A5D01043930E9C2EDED8BA9DEE5F9DFF91CD887F097B9A2DF0099E278C253E0A549C7A2D81078C6,
       0x680566EA7A1E724A99B5D7099AED278A3065BBC64BED441154DCD346D38C9771648D55656B16CF012D0C6EC8F616D3B758089A8147D731AE077D557204256F93]]

/-- The generator bit that says whether data bit `t` enters parity bit `v` (`v` counts from the first bit of the word): blocks are
circulant, each row the previous one shifted right. -/
def generatorBit (c : LdpcCode) (t v : Nat) : Bool :=
  let q := c.circulant
  (((c.generator.getD (t / q) []).getD ((v - c.k) / q) 0)).testBit (q - 1 - (v % q + q - t % q) % q)

end LdpcCode

/-- Bit `i` of a byte string, most significant bit of each byte first (labrador_ldpc). -/
def bitAt (bytes : List UInt8) (i : Nat) : Bool := (bytes.getD (i / 8) 0).toNat.testBit (7 - i % 8)

/-- The first `n` bytes of a word of bits, most significant bit first (labrador_ldpc). -/
def packWord (n : Nat) (w : Nat → Bool) : List UInt8 :=
  (List.range n).map fun b => UInt8.ofNat (((List.range 8).map fun j => if w (8 * b + j) then 2 ^ (7 - j) else 0).sum)

namespace LdpcCode

/-- The code word of a data word: the data bits, then the parity bits (`copy_encode`), called in encoding/src/lib.rs:84-87. -/
def codeWord (c : LdpcCode) (data : Nat → Bool) (v : Nat) : Bool :=
  if v < c.k then data v else (List.range c.k).countP (fun t => data t && c.generatorBit t v) % 2 == 1

/-- A check is violated if it contains an odd number of ones. -/
def violated (w : Nat → Bool) (check : List Nat) : Bool := check.countP w % 2 == 1

/-- The number of violated checks at a bit (`decode_bf` counts them over all pairs of a check and a bit of it). -/
def violations (c : LdpcCode) (w : Nat → Bool) (v : Nat) : Nat :=
  (c.checks.map fun check => if violated w check then check.count v else 0).sum

/-- The largest number of violated checks at a bit. -/
def maxViolations (c : LdpcCode) (w : Nat → Bool) : Nat :=
  ((List.range (c.blocks * c.circulant)).map (c.violations w)).foldl max 0

/-- One round of `decode_bf`: every bit with the largest number of violated checks is flipped. -/
def flip (c : LdpcCode) (w : Nat → Bool) (v : Nat) : Bool := if c.violations w v = c.maxViolations w then !w v else w v

/-- The rounds of `decode_bf`: at most `rounds`, until no check is violated. -/
def bitFlip (c : LdpcCode) : Nat → (Nat → Bool) → (Nat → Bool)
  | 0, w => w
  | rounds + 1, w => if c.maxViolations w = 0 then w else bitFlip c rounds (c.flip w)

/-- The checks that determine a punctured bit: it is their only punctured bit. -/
def determining (c : LdpcCode) (v : Nat) : List (List Nat) :=
  c.checks.filter fun check => check.contains v && check.countP (fun u => decide (c.n ≤ u)) == 1

/-- The punctured bits (`decode_erasures`): a bit becomes what a check asks for whose other bits are all known. For these codes every
punctured bit is in exactly one such check (`punctured_determined` in Props/LdpcProps.lean), so that how the crate counts votes does not
matter and one round determines them all. -/
def fill (c : LdpcCode) (w : Nat → Bool) (v : Nat) : Bool :=
  if v < c.n then w v
  else match c.determining v with
    | [] => false
    | check :: _ => check.countP (fun u => decide (u < c.n) && w u) % 2 == 1

end LdpcCode

/-- `labrador_ldpc` 1.0.1 with the arguments of encoding/src/lib.rs:84-87 and 124-127 (20 rounds). -/
def Ldpc.ccsds : Ldpc where
  encode c data := packWord (c.n / 8) (c.codeWord (bitAt data))
  decode c received := packWord c.outputLen (c.bitFlip 20 (c.fill (bitAt received)))
  encode_length c w := by simp [packWord]
  decode_length c w := by simp [packWord]

end Sia
