import Verif.Model.LdpcCcsds

/-! Generated by tools/gen_ldpc_inverse.py: for each code and each block of parity bits (punctured ones included) the checks that add up to
the first bit of the block, apart from data bits. That they do is checked by the kernel in Lemmas/LdpcUnique.lean. -/
namespace Sia
namespace LdpcCode

/-- Per parity block and block row the selected checks, first check most significant. -/
def inverseRows : LdpcCode → List (List Nat)
  | .TC128 => [
      [0x359C, 0x393D, 0x7F72, 0x95DC],
      [0xC8BE, 0x386B, 0xF670, 0x7D9D],
      [0xB22F, 0x78C1, 0x86F1, 0x69BC],
      [0xD9C3, 0xFE60, 0xC1FC, 0x307E]]
  | .TC256 => [
      [0xCDE43D63, 0x337BB36, 0xAA16CAEB, 0xD7A703D8],
      [0x741405C1, 0x3D0175B, 0xBF8EAC36, 0xDDFF4AED],
      [0xF71FC1BB, 0x6FD84DC1, 0xE8CE787A, 0x2C53571C],
      [0xDBE366BD, 0xDD634DB9, 0x6D6DE71F, 0x856C18EA]]
  | .TC512 => [
      [0xB2EC55A5A78DF0DD, 0xEA5C60C3C3B1989B, 0xAE016AF4539AF984, 0xD5ACDA5241652070],
      [0xDB35571889BC8675, 0x750BCAFF46BFBA54, 0x71CD23A6DE102E5A, 0x96E0A1B0855A4780],
      [0x73C38AF24BA7A2, 0x19B949AF04B1D1B0, 0xCE6319603D7C64E0, 0xF9EA80A649E354C5],
      [0x62DE39BB0795F822, 0x390DF14B5849E7B9, 0x4D57A7853EBFAA27, 0xD1BAA9D1D79F8F03]]
  | .TM2048 => [
      [0x80000000000000000000000000000000, 0x0, 0x0,
       0x0, 0x32F2D2640A022AA26B62F1A7485D8230, 0x54E6D592A72B2A9790F2922DA1D6D1C8,
       0x44EE4A8E9319DB04582D2BCF05F3ACDF, 0x9113A4483103D669413ADC56A34DEFFB, 0xDC786D4DF2DE4C4AE6E0235BDFC970C9,
       0x2DC5D1831D2B2E5395E18B5AEB654FD, 0x4852008A0FF946CD1D2FE539E3F1BB56, 0x99912E6FCFD6DB0FF0E2DD9F9BC26297],
      [0x0, 0x80000000000000000000000000000000, 0x0,
       0x0, 0x5F261668B079F7C527021B559EBD8A38, 0x79C476E37C2B1BD8A0CE4135C7BEC79B,
       0x6DECB24EC17BE33C006731366EFF567, 0x15B2DD212A7E6202F583B016308A06E0, 0xCF80DB0EF3B6558EC482CBE71502B0CA,
       0x1B70B8B876ADAF40396E75AE421143BF, 0xCE08FB33D9E40FCAF21C6C3B35046F0B, 0x722934F21111F2079EB20BD55F9FBE7D],
      [0x0, 0x0, 0x80000000000000000000000000000000,
       0x0, 0x10076FEFADCAD8D698FB72E8B1FAB9DC, 0x646E40F24A0904BB95FC7DB651CD1EEA,
       0x66C392F1624FD78C45236D6B5C89044E, 0xC77370EC1745A3C5FE84B23604C82A1F, 0xF3128271C3C51A509785C74F3A50CE18,
       0xE4D740A7A07ED01EB4696BC48C32186B, 0xF084D362313CE446AE274A15E634B299, 0xAA0E69EF901255E5C3A032898804A568],
      [0x0, 0x0, 0x0,
       0x80000000000000000000000000000000, 0xE57778185CB890984A226CA89A38B382, 0x10543BEEF41230648976AD59E2F9135A,
       0x1B7DD0643679FDA47C1F04FA4EDE2471, 0x753777A0AA58F200D4D4B527E6C14C7C, 0x596BDA1F557C636DCD46EFD481B9673B,
       0xCEE4390776BF156040B58D381C8DEAC0, 0xD4E58636EF6572138DA66A29BCB692A, 0xEDB7F62BE78D24ADF4354A4C25F63F27],
      [0x0, 0x0, 0x0,
       0x0, 0xEFC8DD9DEB1F7702DE7FCC38BDDC7BD8, 0xC6DC929DDD07875A09C57485D8D4E04F,
       0x7DC7E8BFEEDB060C3C9BD026D3DBAB6E, 0x24139CA748A8B17A0B25FEF8A442C0E5, 0xF201604D4DC6138DCE8F6FBBC022001F,
       0x79F6E9D597174AF50632A49710A81033, 0x57376B287587993CC1B2E0CC3C78E192, 0x3F77E16610F05D094A5BB3B4CCE22D0F],
      [0x0, 0x0, 0x0,
       0x0, 0xAE5BD4420EC5A7C6F1E466D2B5A9CE2, 0xFD8D985CD92836A46ADB6C98BD8F7BF,
       0x351A24C6E2432869E9F4633EEF5A2BD, 0x4FBF4A2F293E830A153DA5442CE58AAA, 0xEC7DA7EBDE3F7D9B6F52EED4B1B485A,
       0x8589134D7A806260551DAFC76FB46F54, 0x6D77478BDEE0887306432F1D79C70DE0, 0x9094774EBC6A9ABE1785DB28B2B0FBC3],
      [0x0, 0x0, 0x0,
       0x0, 0xD307E028DC54987973156C060F366EC, 0xD4624B8450B2A3B22F72C5B0C3F1CFFC,
       0x5E5CB0E4FDDE9D97C939CC5A298ABFEB, 0xEC158C1C812D86278757A4C653FB54C6, 0xAAC3826450639DDA6C63B9018048D48C,
       0x1B77E596CB93F95FD6AA08CDB7DDE551, 0xAE5FE0305086B69FFCD779EDBCEC0FB, 0x5E98BCED1F5F3D03BF9F8102F80459B2],
      [0x0, 0x0, 0x0,
       0x0, 0xCAF792E587909BFFEC110DB3C4E4A1E1, 0x4A3D1D0E2683AE59556ED1FA3E6D32B7,
       0x65BD0684366F35713E4ED113A6053AD4, 0x71391C622AB6E1CC99350FEAAFED619A, 0xE9CEE94E942A2C3D32E213BC258A230F,
       0x182E330877AF2BE23EE0AC898C0DC05B, 0x88C774577D296F8630FDCC2594CB0430, 0xA021573605F790183085CF68EB99A240],
      [0x0, 0x0, 0x0,
       0x0, 0xB6D9CEEBC576AEDF7A367E4A3302044D, 0xBD30655CCF88272F98DAB6B386BF23FD,
       0x46C1772F6D870EA2C29410610F10D777, 0xC002C3BC28D269D81B2518A00CEA3192, 0x806488D0F96ED02B1A78A7629BD745F5,
       0x63EB0FB0FF7AEDF3BE936B945670D023, 0xA79393146FA8619279BA643053EF693, 0x36EF2D1049F0F47187DCF3641BB68B4C],
      [0x0, 0x0, 0x0,
       0x0, 0xE9FFD883750F591A5D34651FADBF8E75, 0xC4F413BFB3A33CF73814F7864101E466,
       0x401FBC0B8190B0910292637269FF2210, 0xD5B01E9D02AC0BDAEEA6A8B63C603772, 0x4FE453DE0AD885A5DEFA6C858ED5F53F,
       0x789BB70889D742B387FD1E3A1461939C, 0xC471C2029F1E89D3D587CA78303A9998, 0x44C619E258E10676196EF8B144293531],
      [0x0, 0x0, 0x0,
       0x0, 0xF9F8B76CD8C581CCC5CF17F71C4537A9, 0xA09A534DF9AA384CADE88A3010CCFA8C,
       0x26DC2EFAE3DF671D47B10E193576265E, 0x12C36E7115E9A81F10221A8038A81D6D, 0xBCF6D1AFC91D9FF5497FABCAB4853B27,
       0x9C4CF7AF29A992AD339475FE98538BF7, 0x34F51160AE226D957BA0806DD60E2B01, 0xEEC8700DC8F35393DACECA38CC2D9059],
      [0x0, 0x0, 0x0,
       0x0, 0x1C8FCF74847D11548FED7B5F867D842B, 0xB0CE68A30DB80828249E2769F235E9D6,
       0x3DA1FE9ED5A69AB93BAE0AE37BA8022F, 0x67F419D1BFB15A1FC4F6AFA7DE695111, 0xE59D0BB09C61FC988439441E353C5C1C,
       0x52A8CEA85F1687CD7321F8C684DE6137, 0x39BB4903C0D43AB4437AE6CF4DC5422B, 0x37F86262F7E773E2EFB8074E9DBAF7E]]
  | .TM8192 => [
      [0x80000000000000000000000000000000000000000000000000000000000000000000000000000000000000000000000000000000000000000000000000000000,
       0x0,
       0x0,
       0x0,
       0xE6346294FD20E2D8E17BD7DC0D52AF725DE9F2F7680C4FB99F2704519F3E675C3A508E457DC0217CCC9DEE698CF5270AE3685B189F2136AA271FC89784A90913,
       0x55FCACC28ADD9CBC0B99066B26091D72733428DC9A2FA48851942A0003F03DE5E71E34BA908ECBDA1B803CB97E90F137D5CA0E13CD59DCE601959D1CFB6D7971,
       0x738A452C4EF6D02ABFC3AFE16458DAA2A31CA37121AFB2EC89FD44E306A9B3BE90160A2E606C1A36563AB0B59E371A5C2F04F6E0790A9C1D429944A0DCBB4FD,
       0xA6ED5EE913ADC62D6D5B62506E797E849791C6AFB05382CD57196444997C1FB9B43A5DBE6C62EDDCF54205378A2A091E63177D643259CEC4DD021BCACCA5E5CD,
       0xA0CEBC8462C48DF16C7145D4F6EAEB83F0D935AD8F89309E348F856A596E59C8F912C64DC06359D6FDC18627D4C72AAD93EC92E52AB939BF6BD11397E47FD250,
       0x183D525E21BF1AF84483A59735C78794CB48AC7E21F90695ED73400A7D0F57EBF87EA4CF7BFFD500399A2D00CBF1CB50E8EAF0CA14E5D8E9F59F1C9089AD9A4C,
       0x2E2EF7604D1FADB6784AAAA38AB591A204B31FD9497F551895A2050616816CC220C6270216DAD5AAAE2A1A15AA430B77551E313AD7E278D205CBCB590AFDE5AF,
       0xC527D1809E1DD55B589FE207C463185A8D9432D38E3EFE9C16106872DAA8CCF8AC475055C3115FD3C14869B5513FC78401B1E06E18749AABA0230E500B1863EE],
      [0x0,
       0x80000000000000000000000000000000000000000000000000000000000000000000000000000000000000000000000000000000000000000000000000000000,
       0x0,
       0x0,
       0x8E5EF7B2D75F56D4FFBD34135927327EF53FF4041B6B18222472E24E04D14D16C7A37409D9CB0E3E02808DECBE9DFD46737BBACB49983D30E2EABEF87AAB4AAF,
       0xDF25C49A58B8878E76AED81B729DD9E30DF1D85D05B08995B3C20EB632F8D9926409757F72A42505368DCC5873A852F29FE375EF0ABEBEF417AEAAE0BF27B888,
       0xA3B353CBB381F4A3F397036426B423883194D8D7F0F1BC4D66DE93D053EFCF2702F0C91193C7E6749F772E1077DDD0D0CCA9E94C796B15EB3D981F1359887563,
       0x31B420BB9458FBFC41786F3AF2EF8B8CC2D221BD55E28F7B6C872B71081751B434CFCF620844BB09FBAB27385CF5A12D3CBA5989BDD9B7601BB505BB2B009AF,
       0x356F1DCD8E5804874D99F2E397B3E087C2A6BAB379DE6215B86A8E5240C5EF978A415AF6F25C025EA348403545BC79BB99A5C8A173FB3783E66F3DF03AC37481,
       0x3F550F06E4BEC3EAC8C3113975A2FE774DF3174ADE81C57CE982F16D424729E5351C3931AF93CF6CED0310E73DA1C5DB6BA8ED3DAA13D5DD28C95DCF351A371D,
       0xFED2D2D04CA568D84AAC537DE73B88B1003C52592CA3B50CA431FDD557EB901A401E945BF68F038CBE947F0EE0C986E150559CC6D12FA8841CE5E43C114EBE81,
       0xABD332F51DB6921A73BC63FE170A43D653AAD605CDBAD343B949B58F31C6F2525E8DA29227A2974601A876ED1708DA70A5B4213F1D0FA1CAF2BE41C176FCCF4A],
      [0x0,
       0x0,
       0x80000000000000000000000000000000000000000000000000000000000000000000000000000000000000000000000000000000000000000000000000000000,
       0x0,
       0x6D183D8C82E310FA94BD0241D759B849BEC0AC97ECD28FF1E9923840DADA289628335D7EE04C58D6C018DEFBD19811E82DD21FAED164B302437C7C58BE2EC031,
       0xB25D6AA15ABF78D35801B304C9FC862F021415EFED4170AE4ED46303E749881B8286ABFA0696799C1C50F2BA7001FAD7DE43C0C75F19D6D8792E5314A0266F5F,
       0xB833D855E0A0107340F7008FF0B2024BBE14F436ED9F240FB87D65D2C7E2AEA948E6BBD608C24BBF7D7DBDD4468529F62CA197830D1D83F013D47E93169E45F2,
       0xF74525DD51623D3C77BEE0BFB282E01507AA6565C244D98143D1ED24157C8C17DED5B18DE5197DA195ED16AC6C34F13E41E9EA8BEB44AF53992EE197EF20D92C,
       0x6F92096E2DF930710ECA757C55F620990CF37E9984257A6A1109E9D08253F210B511CE252A703CCC9AE457DA1D6BBADFE4644BC565B4FA2142D0AEFAA25DDB13,
       0x8DAAF8BDBD9E1166C7145F7C95E7488C0E01EA873EABA21349D95D31C5F354CF95AD1B9ACEF3A8F36C339A3FD30A49F4C7FEA3A29420232B251E8CF0A07CD0C8,
       0xC208B30D2D8BCB897A571C355C5842C713E9078E16C7766AD41A0A7575FB65C66B0F850361410367C2803472491A0E983E67927448E77F5175E8A09A5DD65187,
       0x211A5E9F9F887B7158E4ED7C13E8FECFF504F408B18419370DE2D8C958729766FC2F84687FB668678E031D52169CD077FDEB705E7565D4090E676EAA321AC062],
      [0x0,
       0x0,
       0x0,
       0x80000000000000000000000000000000000000000000000000000000000000000000000000000000000000000000000000000000000000000000000000000000,
       0xE367909985EEB2D89E826BF153C66CC6F0CE612EF2C9FAE68071FE2F000AC8D18341FF51A64BC66E07D52FA614282CD71CBD70F73A40F976D21E79A17F19A571,
       0x59A3BA02080C555B055386E2734F1D0E412E76856F813FC856A869B63D9DDFE05CA8FE2EA75848B6BD55E8FAF56443E05058535EECD612603FFE226690D3566,
       0xBDBEC28832657740257EF195B833809FE5028DCE545BCA99A47685024951A18A23BA35CF45EBAE84CFE58D7B11E0E30AD03D254A09BCF59D4ADC20A4D8399C03,
       0xA5693AA847E213FC5CB86DA161F60069EB5AEDBE7F6DFCBA1DE1FFC2B38A4EBB47A428B051360C45BB51890753C21BE3094A2366CBC6CC338064334004051BED,
       0xB4C7E738B3AFCA3F313D6F5CE64587D72DE544D25850C6B2836392E31234B6AC8C13999CB75BAA02229F0BF8AF6C8255A68B35CA881FC92DE47AD39A5E05CB55,
       0x463DE7590E693995CA4B799B2BDF2A15E2B96E5C0BC13E6A178DFBA84C73D02A79F8DE513D1C5ACD680740FFA9315E8C6A9A18CC6E6E8B9897075ABF5CBACCC9,
       0xAC046B86FCED94DBBB89D256FEFC5180E693F8E786630BD02FC8CAB82E301813CA63F1C6C877453454375B7BF81D618EE87B491F3489FCC03602E1F48AA02AA1,
       0xA61C30FF5D6C934F5C0FE2D7D0B3C20378C0F07CE080CD6C3DE3D24557D86E067E8CE7263F2B20D7638AB23A7900033CD964640A121E81EF33A333E0DD13FF85],
      [0x0,
       0x0,
       0x0,
       0x0,
       0xE396F578B4D34391C47FAC2E171F29CC74448489B77D1F0FF47D795164F043D1FE55242E13B8C22474ED4E53B23C9F15ACD9F97877D40A42A61EF246B94D7A1B,
       0x6A09548C24AF96EEE4D4BB12AAD7B433DC90D5417B102F9B046A0A139ABE917747FB654167F94D9B59754861493DC093DB0C340D48F23C2350BABFBFCB097FEC,
       0x9567F9F93C20B543024BA4DF316557A80D658E9B7700E90909FD0D38999064E0189CDA9A73EACE6299FF23413C79ABE7717FD6C6A1F4A656668B445B69013192,
       0xD171D5E77A20A35889346747F611A9D6FCC48D543B5E5DE27CF46BA19F44E410B6922F7D35F35C5E02EE2AE8BB1D839366B7B7CF84E82C6A7E9AD0D358AEE9C7,
       0x90FD12A0AAF14D843586B8B0441EB6C1C9A38239E2B523F255E4E50E6366843FD06627BEC93481508BA4A37A16A4E325C621C4ACA855DDBEF40765E5E412D33D,
       0xDEDE84C06B7B0063CA95A97D188013A918427F6808CE9B0CC3A4C509185F71D4FBE1B2A01271D599622E8EE78044E75A7D98D8E354B00609C4A0F0E0DF4E8470,
       0x6C814736A69883F989EEFFB917212AD6458B7CE0C24143BA240A05C5C70C18A7D94CDDE1AF0B017F36F46E04591F1AD9700CD8B0FB501890FBE2E3441B3EC7BF,
       0x29B98A94ACB504D84D963AA3486EFA622667D3B3F6CDC5E37A49C436892423DBDDF83B4936994AC493928134ABC736C00D3E6D32543D9B42C985E27F6845DE78],
      [0x0,
       0x0,
       0x0,
       0x0,
       0x2BE0AACE83FE83A93C284216AD265D14CECE973F4650D8C4C72E8765876CA56B115F10203B04839D617A2371F013C7C8DB0E753FD3F1C67FD19D06CC054A603B,
       0x7349B31AAC37273069F3C2308354901FD0358749E759A9F7299C64EAC9F140F850C6CE2B9CB7B5F2F769C245D58F2ADF5E21BC8AC02196975554E70D7449D2AB,
       0x1414B8C4EDBFAE124D3A763A767719FDE19161AB187101679B6B03A7D6533C10B3EE8155CE87B72C1EE6B6C0F1180237FA344937FB23619D292851E7401EE964,
       0xA9D0C60A2BB6FE2BF170710A474EFFAF772928D1A014D116BB3B65C7A2DE3CA14FA205EFD65E27431FC210A2234FD556CE170361F4BCE390DE5761AE2A3A7539,
       0xECD21DAA89A64173FEABC2D30934EE06922760E849AE6511BC38D7BCC6600B1EB719AA202CD69A70BC012D3CF6F4D60390B9A1AAC3E5CDCBE41D0794FB09CA08,
       0xDCFCED51A72726AADEBDA380878F7F524D9938A08BF141EEF948BF88BC8DEC6B84A26A4C52C21032AC71D86B0555CA8F5506207BAFE6138B45057BA498F89526,
       0xAD2AAC620BC304162DE7F600BB711FF9010AF3585292FA56AC89C7FC7167BFFB3653DEDFE55E23142D22705A46C27AA9A9A81888188440A853F318C89A537941,
       0x4F67746AC089DF5B2BD2A10D6B060DC6A9339479F3D947A8405851E2C7C2B4A66BF74799EE736B1BB6CD5E60CD181683C29A6CB2A0075C9645E7B8F705E04B82],
      [0x0,
       0x0,
       0x0,
       0x0,
       0xEF56C52176417A19205667EF8471BA7E132E38CF54FFE46F0C058E1850B69D2B05B687CFB403EF7A709FA5E68C51781C13E1C130733FB5798C4D6367A8463F3C,
       0x394A697FED26B7A15481A58485197F0AE8161E8C5979A630279639178EA8436C4AB45E1528F435C578DEAF79FA77EA48BA800E28702A2816115B78047511EFBF,
       0xD2E7364C788DE3C85FC3B7D8D7CBFEA6FE0D036BF1661B74FA178E03D9699CF0FFBACA3F232BDA5820AC4434D55D4D043BCBFFA5A1CB793EB9E144ACD32C8507,
       0x66F1550B6E32E95136A1852F420DF09375E0F737EA0053647140B1C2355263C55BFDFE697D5FFDE900C63BCADF544904AC51DC5A261249717246CE8A8BBAEF45,
       0x4CD26789D76A203FC27E8B92D353608274C2ECAE92E0B6747D49D95DECA73A45B8E1FFAB74F5587A2CDE2AB05BE7EA09F89EB174237F933BA617AD914329B984,
       0x45DC7CE3005A707FCFC154493A3B12E39C23949AA58441AA0CC3150BED268BE5E5C94201E5589EC3E6A75C4629C9C3E2180B9756A305C2A28405382B272DC03,
       0xC403BE5912531BEC0879B82FEA8BEAAAF081AD0A3E1C963D082ABCE09D61DDE5214A1111BE9DA241BFB5EFD36AD1ECF3A2DCF3729A2C825C5F877F53EB88303C,
       0xA0508812FA77598824973B0FC2F4469F9B4DE3C7B458482DA3770913764A90BA1A96D56935BD865CFF4A953E93F42194581BCA0CA053A4AC8DAC7220E4A7CD6C],
      [0x0,
       0x0,
       0x0,
       0x0,
       0x85A410B9E7B84B9B85C04F4659B2D30D908532821827CC3857DAA21855515F92D5CEEB047C800B2569A3125D8E3048ACE35D5688EA08882D29F291641CBBD3D6,
       0xF587334CC0C102A94C369E7466854E3D3A274912346FD06684EE8878E8356DFD60B7BB55A402A623C255D5A522570D306C84A159FFCFA0A9911453ED185E3845,
       0x522355615E3D493C2ED6978AD222D4AC12FB54DECA82A8C3F81D7F16BC0F7F7D8109CC4ECD6764C3B3239C9C0ED10D58D44EAA1311A958ED379FCEA49606FED,
       0x8FEC248FFB8DA101A2762BE87AAFAE5C5D0E6B98F8B1791F889C5CDB1D85085261932943426EF43517167D41BF28CDAA6180759F0C44E00273441BBBB85BA534,
       0xBA8C64ED3AB98F1CD3EBF116BE322DC1A15DFAC3BE712454321E78DBB849282ABE4C08E6115C9D665415D1CDF5846ED2C252CD63E019782636C43DA96D5CCA43,
       0x275330D17CBE7C146CEF0CDCF9B02731134C31FE11DE0F0DBF4A5F7FFAB2FA93EDBD2A4741EB0A23328AFD404BC373AC8C903B564D5CD7E2FF7ADF36F37DD7AA,
       0xF5AA22F044CD3945EA50719DD9A529C7C6D945120D1A4E7D100829E4C3E365DF60C5CF99AFA0F3294812F2AE529BE8A53FC4148747E9C70577DB1C50EB0402,
       0x220E9FA5A3E46661E76F365A85527563AB3D181F94D7105D23A5944C2103ECD44CD2E10E833097EDFB1055DE62740C7C65FA6F9B75D5149601F07375A50E72A0],
      [0x0,
       0x0,
       0x0,
       0x0,
       0xDE5C0919991252C48AD74CF2F7EF48A7660D66FD0B2BBAE88A35A12B7A53B499CE506BF8001C5B349C37AB48107F0F113E81A6142404A10758897DBB722EC044,
       0xD90C2D001A9B1CAFABED04EB3AE20399FA87A91EF05CF5FD283E417ADBA12AEDDB5AD1EB632BCFF0BEC6E023173370CFDD05D8D2B376200E057E21D53624E37F,
       0x362B50FB2F556932D4733E3C790C8CFBB4E52B28B83EDDF20CBEA7DCEA177D43497E701A1491A71E28A0DFB08D917C86B3DCE8944280FD3DC4D346DC67638A66,
       0x387509CA9A3C30AB3F9D5644231FEAA1DCD29936AD1E8A088D8C901BBF23DF4A8B560B261024BA93F1E2907105FF1FA88DCF359C3E2DC08F0799E7A03AD48FB8,
       0x1687F184DC5AF12C64D83F1496756053D125F0ED71D85BF349F4A23820CD709FF84F817593856693885E80DA6F839A6550435DCA0A800F66A708901A513762CE,
       0xBD7F1402BFE8622E597A7D4AC5E31C4485462666B280C8F14433A79277AD1730A70B327664B0EB5F3FF1EBAB68F62F7C00297C077438B48BED5DEA5F5451F41E,
       0x8EF379097149CFC0B349DB8007C47375319DD776CDDCD6ACFC4620B89EBD217584A13AB3F770EFFB742333C961E5564AF7C4BDA075A7B8D03928C9E2F12AFD70,
       0xC785FA60D3DD603551BD59D477EDAD50E2C4FA222F2C903F4E0A53BFFE0B065A297C697CB16D2BFD0A846FC587B092AE8BBC854158CAF0F0C42CFC19B248CB95],
      [0x0,
       0x0,
       0x0,
       0x0,
       0x5002FEAB4E4D0410756A78E1AEC87AD9933292F91040A2CAAE4743657E82F98F09F31FF1D9D7550A9EB726A4AEE2F2574DFA1CDF6D9C9C37BA63C34308858AEB,
       0x629E99A42239B21DD43DCF0487FDA7AF7767143F5EC7C689BFC4FCCE959F37FBF53A494118FEAF5884B2C7B649B223D42E6AD3DB9C89EFA12D08B3589035BF7,
       0x959803309CD49D9127E43D585FB8AF738571F3FF48CF61BF6A60340CB9F8B2644B8EB90B8756416AB7D7F1A0FA4CAC567F7501D83BEBE8D6F94B59CF3EEBFF05,
       0x3B6E4BC12379BF14FB8AD0B78C31121910FFBB2D7840A2FF3B44E2ACAFA2AA51C81AF7D030A0F1236E582202803045BA5E049004A5F05BF90622B7FB88648617,
       0x23E8EC495202F5AB2941CDF701C680D413834A5E080639E6F19E2C6A60089F08720EDB8361D964CD2B16C0EF2A3FE3DEC9E6956B797B38E54167ADEA6BF4164F,
       0x822A1B045B56A1C491B96C73B041E233C8B5312C6C010D8DADB156FF35EA3ED592170B47CB232433D2F2FB4C5557EAA76B81913ADE2B6156C594B790614BC303,
       0x7021ABD93DECA718F9E588FDE0FFFBC431A1852FE17F63A05877DD6DC956B16FC4BFAEE801FFEC77CAB74CC7812CD0ABA7912166A488105425CD2DDEE06443F1,
       0x6C56C895CE6BF22F22013A2A60E7EE86B16E2C27E296437CF743E630CFCDF40877F1CBEE96CFBCBB0B2C192890B848DE2E08A47E45C5513A3692BDD8C4B404DF],
      [0x0,
       0x0,
       0x0,
       0x0,
       0x3D1AC327CCAE14EAE1D77AA07991C2902DF23E6EFC922D3B47D57B25A458D11921C0428F399B0DDC5EAFF85F7F7AE3BF60280371BCF82F35F91FBF1BB6AB4ADA,
       0xB474833B189CE3F285426FF481835C55F56264AC18AD0CC6D5282CCF0E107B643DD50F6E17199369941BDEC1149AD8EA9CA56DFAE6D148226BFED821292534A8,
       0x2DABDB657C748DE267133DD7AF0AAD383B6507C9A55045B0D21D51DE7E1A1CCD036802DD8F940AD5CAAA4C74BCC985A053D4965B36F66B26EA9F275C2875BAF7,
       0xCC2B6E1C721B82288C3430083EB3F20C1755DE48BA047B7E78950F88BADE264616CF465DD5B98C82FBB534AEEC04B4841FED7A8F4EB4F4AA9F0C566C67445F3B,
       0x4C7AE5277FFBC5DA278BB88B5430A04D1F7034C78C23438CE097C5BAE25B6D18C71F15A64BA95801B1F29735375459012D82DEAE1CCFC2C403B70310C9A9CD5C,
       0xF80E3B9E6C8B0A256AD330F25A6AABFC6B4DBAB52AAAF9EE4680BCEF0196A1A07BA10DD05D08CC0BEC16173865DA353AC7F32984A0B427DE08A3B60C13713CB,
       0xB22918D410676C9183B294C8BCA7B903224882A1F7B815CA8C6DD718BCADD4A9AFB02BEB60BEEF10083778B5C836DE3399F6B312EC6F6F0550258D44BDB21276,
       0x4D4C960A51E3895E7AE5D756730F1049446AD82F53125A4BFAA13EF997BF636E8BDE4F86E979D4DC852F047A862498A9D3E3D42030A0853338F5D372F6AEC4BD],
      [0x0,
       0x0,
       0x0,
       0x0,
       0xDE7D53BE4940A6327F5511512A57AE56DD3C5F400E5BD7DDC7A4850AA45219C8A281BDDE9FD0CBB2597AD7F96B52CF687C95738686B8D6432B01C6BAC9B2EFAB,
       0xB1EEB89B381C26A73517579AA6B7AD85117083C44E551F3A5042AA546DC9A69A381F808CFD6C17E2FFCE804EBBCC9CD499A0E8CF081C290468013A07402801CE,
       0x901519ED4E11FAA2426DCC4217392DA7DE678A07F10B8F29766BD4DC374BBD4720D23712CA7FA451054FC10FAD2966AA83E9B3113F4A9EBBA04307F8F04C26F4,
       0x694254B435F991D4D08C5DA95F45F265FC0F33F6C56987C46574F04A095468FD516B6EED848F80C740E4BDA9BFC6AF6716A759E9857238991F68652C634144D6,
       0xF8BD021FCC540FE516B6D7D7B275279A32957015D473853E63F45759F06FDBB44B0C8C3AFCF2F203936D9CCD9838DB548B09EB6494D00BE9E7CDD08A97AC0609,
       0x49BD04E0E8A189379CE64A940E7980AA240DB5F7596B91F4F3E5F066BC6ABA307E42CE8C38CCD60DD6C6218C2F6CFDDFC6E52A542465C9E5778D61DF9D8DDF02,
       0x1E2D7352EC8AF84A383B469E425BE883C4DB7A4671DB1E1AA3A51DA0929DCCBA65D3DA2DA8C9AA245C0023CE302BBFBD718DFA0DD8E693C566276CB0371238D7,
       0xEB50A6F50C8F1A1126EA3581A3BCD24A3CAA2853B3929727C742ECBCC0670D68F552A8A0D652F40BE6A5B640FF249B950A87B02A22BE04DC0B56E0922BBD3B38]]

end LdpcCode
end Sia
