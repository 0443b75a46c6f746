import Verif.Model.Nuc

/-!
# Tables of names and states of nuclides

The two tables of `/repo/src/pyne.cc` behind the names of FLUKA and the state ids.
-/

namespace Cyclus.Nuc

/-- `get_fluka_zz` (`pyne.cc:2444-2592`); the keys and the values are distinct.
The number of "LITHIUM" is written `030000000`, which is octal. -/
def flukaTable : List (List Char × ℤ) := [
  (['B', 'E', 'R', 'Y', 'L', 'L', 'I', 'U'], 40000000),
  (['B', 'A', 'R', 'I', 'U', 'M'], 560000000), (['B', 'O', 'H', 'R', 'I', 'U', 'M'], 1070000000),
  (['B', 'I', 'S', 'M', 'U', 'T', 'H'], 830000000),
  (['B', 'E', 'R', 'K', 'E', 'L', 'I', 'U'], 970000000),
  (['B', 'R', 'O', 'M', 'I', 'N', 'E'], 350000000),
  (['R', 'U', 'T', 'H', 'E', 'N', 'I', 'U'], 440000000),
  (['R', 'H', 'E', 'N', 'I', 'U', 'M'], 750000000),
  (['R', 'U', 'T', 'H', 'E', 'R', 'F', 'O'], 1040000000),
  (['R', 'O', 'E', 'N', 'T', 'G', 'E', 'N'], 1110000000),
  (['R', 'A', 'D', 'I', 'U', 'M'], 880000000),
  (['R', 'U', 'B', 'I', 'D', 'I', 'U', 'M'], 370000000), (['R', 'A', 'D', 'O', 'N'], 860000000),
  (['R', 'H', 'O', 'D', 'I', 'U', 'M'], 450000000),
  (['T', 'H', 'U', 'L', 'I', 'U', 'M'], 690000000),
  (['H', 'Y', 'D', 'R', 'O', 'G', 'E', 'N'], 10000000),
  (['P', 'H', 'O', 'S', 'P', 'H', 'O'], 150000000),
  (['G', 'E', 'R', 'M', 'A', 'N', 'I', 'U'], 320000000),
  (['G', 'A', 'D', 'O', 'L', 'I', 'N', 'I'], 640000000),
  (['G', 'A', 'L', 'L', 'I', 'U', 'M'], 310000000), (['O', 'S', 'M', 'I', 'U', 'M'], 760000000),
  (['H', 'A', 'S', 'S', 'I', 'U', 'M'], 1080000000), (['Z', 'I', 'N', 'C'], 300000000),
  (['H', 'O', 'L', 'M', 'I', 'U', 'M'], 670000000),
  (['H', 'A', 'F', 'N', 'I', 'U', 'M'], 720000000),
  (['M', 'E', 'R', 'C', 'U', 'R', 'Y'], 800000000), (['H', 'E', 'L', 'I', 'U', 'M'], 20000000),
  (['P', 'R', 'A', 'S', 'E', 'O', 'D', 'Y'], 590000000),
  (['P', 'L', 'A', 'T', 'I', 'N', 'U', 'M'], 780000000),
  (['2', '3', '9', '-', 'P', 'U'], 940000000), (['L', 'E', 'A', 'D'], 820000000),
  (['P', 'R', 'O', 'T', 'A', 'C', 'T', 'I'], 910000000),
  (['P', 'A', 'L', 'L', 'A', 'D', 'I', 'U'], 460000000),
  (['P', 'O', 'L', 'O', 'N', 'I', 'U', 'M'], 840000000),
  (['P', 'R', 'O', 'M', 'E', 'T', 'H', 'I'], 610000000),
  (['C', 'A', 'R', 'B', 'O', 'N'], 60000000),
  (['P', 'O', 'T', 'A', 'S', 'S', 'I', 'U'], 190000000),
  (['O', 'X', 'Y', 'G', 'E', 'N'], 80000000), (['S', 'U', 'L', 'F', 'U', 'R'], 160000000),
  (['T', 'U', 'N', 'G', 'S', 'T', 'E', 'N'], 740000000),
  (['E', 'U', 'R', 'O', 'P', 'I', 'U', 'M'], 630000000),
  (['E', 'I', 'N', 'S', 'T', 'E', 'I', 'N'], 990000000),
  (['E', 'R', 'B', 'I', 'U', 'M'], 680000000),
  (['M', 'E', 'N', 'D', 'E', 'L', 'E', 'V'], 1010000000),
  (['M', 'A', 'G', 'N', 'E', 'S', 'I', 'U'], 120000000),
  (['M', 'O', 'L', 'Y', 'B', 'D', 'E', 'N'], 420000000),
  (['M', 'A', 'N', 'G', 'A', 'N', 'E', 'S'], 250000000),
  (['M', 'E', 'I', 'T', 'N', 'E', 'R', 'I'], 1090000000),
  (['U', 'R', 'A', 'N', 'I', 'U', 'M'], 920000000),
  (['F', 'R', 'A', 'N', 'C', 'I', 'U', 'M'], 870000000), (['I', 'R', 'O', 'N'], 260000000),
  (['F', 'E', 'R', 'M', 'I', 'U', 'M'], 1000000000), (['N', 'I', 'C', 'K', 'E', 'L'], 280000000),
  (['N', 'I', 'T', 'R', 'O', 'G', 'E', 'N'], 70000000),
  (['N', 'O', 'B', 'E', 'L', 'I', 'U', 'M'], 1020000000),
  (['S', 'O', 'D', 'I', 'U', 'M'], 110000000), (['N', 'I', 'O', 'B', 'I', 'U', 'M'], 410000000),
  (['N', 'E', 'O', 'D', 'Y', 'M', 'I', 'U'], 600000000), (['N', 'E', 'O', 'N'], 100000000),
  (['Z', 'I', 'R', 'C', 'O', 'N', 'I', 'U'], 400000000),
  (['N', 'E', 'P', 'T', 'U', 'N', 'I', 'U'], 930000000), (['B', 'O', 'R', 'O', 'N'], 50000000),
  (['C', 'O', 'B', 'A', 'L', 'T'], 270000000), (['C', 'U', 'R', 'I', 'U', 'M'], 960000000),
  (['F', 'L', 'U', 'O', 'R', 'I', 'N', 'E'], 90000000),
  (['C', 'A', 'L', 'C', 'I', 'U', 'M'], 200000000),
  (['C', 'A', 'L', 'I', 'F', 'O', 'R', 'N'], 980000000),
  (['C', 'E', 'R', 'I', 'U', 'M'], 580000000), (['C', 'A', 'D', 'M', 'I', 'U', 'M'], 480000000),
  (['V', 'A', 'N', 'A', 'D', 'I', 'U', 'M'], 230000000),
  (['C', 'E', 'S', 'I', 'U', 'M'], 550000000),
  (['C', 'H', 'R', 'O', 'M', 'I', 'U', 'M'], 240000000),
  (['C', 'O', 'P', 'P', 'E', 'R'], 290000000),
  (['S', 'T', 'R', 'O', 'N', 'T', 'I', 'U'], 380000000),
  (['K', 'R', 'Y', 'P', 'T', 'O', 'N'], 360000000),
  (['S', 'I', 'L', 'I', 'C', 'O', 'N'], 140000000), (['T', 'I', 'N'], 500000000),
  (['S', 'A', 'M', 'A', 'R', 'I', 'U', 'M'], 620000000),
  (['S', 'C', 'A', 'N', 'D', 'I', 'U', 'M'], 210000000),
  (['A', 'N', 'T', 'I', 'M', 'O', 'N', 'Y'], 510000000),
  (['S', 'E', 'A', 'B', 'O', 'R', 'G', 'I'], 1060000000),
  (['S', 'E', 'L', 'E', 'N', 'I', 'U', 'M'], 340000000),
  (['Y', 'T', 'T', 'E', 'R', 'B', 'I', 'U'], 700000000),
  (['D', 'U', 'B', 'N', 'I', 'U', 'M'], 1050000000),
  (['D', 'Y', 'S', 'P', 'R', 'O', 'S', 'I'], 660000000),
  (['D', 'A', 'R', 'M', 'S', 'T', 'A', 'D'], 1100000000),
  (['L', 'A', 'N', 'T', 'H', 'A', 'N', 'U'], 570000000),
  (['C', 'H', 'L', 'O', 'R', 'I', 'N', 'E'], 170000000),
  (['L', 'I', 'T', 'H', 'I', 'U', 'M'], 6291456),
  (['T', 'H', 'A', 'L', 'L', 'I', 'U', 'M'], 810000000),
  (['L', 'U', 'T', 'E', 'T', 'I', 'U', 'M'], 710000000),
  (['L', 'A', 'W', 'R', 'E', 'N', 'C', 'I'], 1030000000),
  (['T', 'H', 'O', 'R', 'I', 'U', 'M'], 900000000),
  (['T', 'I', 'T', 'A', 'N', 'I', 'U', 'M'], 220000000),
  (['T', 'E', 'L', 'L', 'U', 'R', 'I', 'U'], 520000000),
  (['T', 'E', 'R', 'B', 'I', 'U', 'M'], 650000000), (['9', '9', '-', 'T', 'C'], 430000000),
  (['T', 'A', 'N', 'T', 'A', 'L', 'U', 'M'], 730000000),
  (['A', 'C', 'T', 'I', 'N', 'I', 'U', 'M'], 890000000),
  (['S', 'I', 'L', 'V', 'E', 'R'], 470000000), (['I', 'O', 'D', 'I', 'N', 'E'], 530000000),
  (['I', 'R', 'I', 'D', 'I', 'U', 'M'], 770000000), (['2', '4', '1', '-', 'A', 'M'], 950000000),
  (['A', 'L', 'U', 'M', 'I', 'N', 'U', 'M'], 130000000),
  (['A', 'R', 'S', 'E', 'N', 'I', 'C'], 330000000), (['A', 'R', 'G', 'O', 'N'], 180000000),
  (['G', 'O', 'L', 'D'], 790000000), (['A', 'S', 'T', 'A', 'T', 'I', 'N', 'E'], 850000000),
  (['I', 'N', 'D', 'I', 'U', 'M'], 490000000), (['Y', 'T', 'T', 'R', 'I', 'U', 'M'], 390000000),
  (['X', 'E', 'N', 'O', 'N'], 540000000), (['C', 'O', 'P', 'E', 'R', 'N', 'I', 'C'], 1120000000),
  (['U', 'N', 'U', 'N', 'Q', 'U', 'A', 'D'], 1140000000),
  (['U', 'N', 'U', 'N', 'H', 'E', 'X', 'I'], 1160000000),
  (['H', 'Y', 'D', 'R', 'O', 'G', '-', '1'], 10010000),
  (['D', 'E', 'U', 'T', 'E', 'R', 'I', 'U'], 10020000),
  (['T', 'R', 'I', 'T', 'I', 'U', 'M'], 10040000),
  (['H', 'E', 'L', 'I', 'U', 'M', '-', '3'], 20030000),
  (['H', 'E', 'L', 'I', 'U', 'M', '-', '4'], 20040000),
  (['L', 'I', 'T', 'H', 'I', 'U', '-', '6'], 30060000),
  (['L', 'I', 'T', 'H', 'I', 'U', '-', '7'], 30070000),
  (['B', 'O', 'R', 'O', 'N', '-', '1', '0'], 50100000),
  (['B', 'O', 'R', 'O', 'N', '-', '1', '1'], 50110000), (['9', '0', '-', 'S', 'R'], 380900000),
  (['1', '2', '9', '-', 'I'], 531290000), (['1', '2', '4', '-', 'X', 'E'], 541240000),
  (['1', '2', '6', '-', 'X', 'E'], 541260000), (['1', '2', '8', '-', 'X', 'E'], 541280000),
  (['1', '3', '0', '-', 'X', 'E'], 541300000), (['1', '3', '1', '-', 'X', 'E'], 541310000),
  (['1', '3', '2', '-', 'X', 'E'], 541320000), (['1', '3', '4', '-', 'X', 'E'], 541340000),
  (['1', '3', '5', '-', 'X', 'E'], 541350000), (['1', '3', '6', '-', 'X', 'E'], 541360000),
  (['1', '3', '5', '-', 'C', 'S'], 551350000), (['1', '3', '7', '-', 'C', 'S'], 551370000),
  (['2', '3', '0', '-', 'T', 'H'], 902300000), (['2', '3', '2', '-', 'T', 'H'], 902320000),
  (['2', '3', '3', '-', 'U'], 922330000), (['2', '3', '4', '-', 'U'], 922340000),
  (['2', '3', '5', '-', 'U'], 922350000), (['2', '3', '8', '-', 'U'], 922380000)]

/-- `map_nuc_ids` and `map_metastable` (`pyne.cc:439-2283`), in the order in which `std::map` keeps the keys,
which are distinct. -/
def stateTable : List (ℤ × ℤ) := [
  (110240001, 1), (130240001, 1), (130260001, 1), (130320002, 1), (170340001, 1), (170380001, 1),
  (190380001, 1), (190380015, 2), (210420002, 1), (210430001, 1), (210440004, 1), (210450001, 1),
  (210460002, 1), (210500001, 1), (210560001, 1), (210560004, 2), (230440001, 1), (230460001, 1),
  (230600000, 1), (230600001, 2), (230640001, 1), (250500001, 1), (250520001, 1), (250580001, 1),
  (250600001, 1), (250620001, 1), (250640002, 1), (260520041, 1), (260530022, 1), (260650003, 1),
  (260670002, 1), (270540001, 1), (270580001, 1), (270580002, 2), (270600001, 1), (270620001, 1),
  (280690001, 1), (280690008, 2), (280710002, 1), (280760004, 1), (290670023, 1), (290700001, 1),
  (290700003, 2), (290750001, 1), (290750002, 2), (290760001, 1), (300690001, 1), (300710001, 1),
  (300730001, 1), (300730002, 2), (300750001, 1), (300770002, 1), (300780004, 1), (310740002, 1),
  (310780004, 1), (310800001, 1), (310840001, 1), (320710002, 1), (320730002, 1), (320750002, 1),
  (320770001, 1), (320790001, 1), (320810001, 1), (330750004, 1), (330770004, 1), (330790007, 1),
  (330820001, 1), (340690004, 1), (340730001, 1), (340770001, 1), (340790001, 1), (340810001, 1),
  (340820015, 1), (340830001, 1), (350700006, 1), (350740002, 1), (350760002, 1), (350770001, 1),
  (350780004, 1), (350790001, 1), (350800002, 1), (350820001, 1), (350840001, 1), (350880003, 1),
  (360730004, 1), (360790001, 1), (360810002, 1), (360830002, 1), (360840019, 1), (360840061, 2),
  (360850001, 1), (370780003, 1), (370810001, 1), (370820001, 1), (370840002, 1), (370850003, 1),
  (370860002, 1), (370900001, 1), (370980001, 1), (371000001, 1), (380830002, 1), (380850002, 1),
  (380870001, 1), (390780001, 1), (390800001, 1), (390800003, 2), (390830001, 1), (390840002, 1),
  (390850001, 1), (390860002, 1), (390870001, 1), (390890001, 1), (390900002, 1), (390910001, 1),
  (390930002, 1), (390970001, 1), (390970029, 2), (390980005, 1), (391000004, 1), (400850002, 1),
  (400870002, 1), (400890001, 1), (400900003, 1), (400910040, 1), (401080003, 1), (410820003, 1),
  (410840007, 1), (410850003, 1), (410850005, 2), (410860001, 1), (410860002, 1), (410880001, 1),
  (410890001, 1), (410900002, 2), (410900007, 3), (410910001, 1), (410920001, 1), (410930001, 1),
  (410970001, 1), (410980001, 1), (410990001, 1), (411000001, 1), (411000009, 2), (411000012, 3),
  (411020001, 1), (411040004, 1), (420890002, 1), (420910001, 1), (420930016, 1), (430880000, 1),
  (430880001, 2), (430890001, 1), (430900001, 1), (430900006, 2), (430910001, 1), (430930001, 1),
  (430970001, 1), (430990002, 1), (431000002, 1), (431000004, 2), (431020001, 1), (431070000, 1),
  (440910001, 1), (440930001, 1), (441030005, 1), (450910001, 1), (450920001, 1), (450970001, 1),
  (450980001, 1), (450990001, 1), (451000004, 1), (451020005, 1), (451030001, 1), (451040003, 1),
  (451050001, 1), (451060001, 1), (451100000, 1), (451100001, 2), (451120000, 1), (451120001, 2),
  (451140005, 1), (451160001, 1), (451200002, 1), (451220002, 1), (461070002, 1), (461090002, 1),
  (461110002, 1), (461150001, 1), (461210001, 1), (461240004, 1), (461260003, 1), (461260004, 2),
  (461280004, 1), (470940001, 1), (470940002, 2), (470990002, 1), (471000001, 1), (471010002, 1),
  (471020001, 1), (471030002, 1), (471040001, 1), (471050001, 1), (471060001, 1), (471070001, 1),
  (471090001, 1), (471100002, 1), (471110001, 1), (471130001, 1), (471150001, 1), (471160001, 1),
  (471160004, 2), (471180004, 1), (471190000, 1), (471190001, 2), (471200002, 1), (471220001, 1),
  (471220002, 2), (471290001, 1), (481130001, 1), (481150001, 1), (481190002, 1), (481210002, 1),
  (481230003, 1), (481250001, 1), (481270006, 1), (481290001, 1), (491030001, 1), (491040003, 1),
  (491050001, 1), (491060001, 1), (491070001, 1), (491090001, 1), (491090021, 2), (491100001, 1),
  (491110001, 1), (491120001, 1), (491120004, 2), (491120010, 3), (491130001, 1), (491140001, 1),
  (491140005, 2), (491150001, 1), (491180001, 1), (491180003, 2), (491190001, 1), (491200001, 1),
  (491200002, 2), (491210001, 1), (491220001, 1), (491220005, 2), (491230001, 1), (491240002, 1),
  (491250001, 1), (491260001, 1), (491270001, 1), (491270009, 1), (491280003, 1), (491290001, 1),
  (491290010, 2), (491290012, 3), (491290013, 4), (491300001, 1), (491300002, 2), (491300003, 3),
  (491310001, 1), (491310004, 2), (491330001, 1), (501130001, 1), (501190002, 1), (501210001, 1),
  (501230001, 1), (501240016, 1), (501250001, 1), (501270001, 1), (501280003, 1), (501290001, 1),
  (501290017, 2), (501290018, 3), (501290025, 4), (501300002, 1), (501310001, 1), (501320006, 1),
  (501360003, 1), (501380003, 1), (511160003, 1), (511180007, 1), (511190072, 1), (511200001, 1),
  (511220005, 1), (511220006, 2), (511240001, 1), (511240002, 2), (511260001, 1), (511260002, 2),
  (511280001, 1), (511290011, 1), (511290012, 2), (511290023, 3), (511300001, 1), (511320001, 1),
  (511340002, 1), (521150001, 1), (521190002, 1), (521210002, 1), (521230002, 1), (521250002, 1),
  (521270002, 1), (521290001, 1), (521310001, 1), (521310033, 2), (521320006, 1), (521320022, 2),
  (521330002, 1), (521340003, 1), (521350010, 1), (531140005, 1), (531180002, 1), (531200013, 1),
  (531300001, 1), (531320003, 1), (531330016, 1), (531330059, 2), (531330065, 3), (531340005, 1),
  (531360006, 1), (541250002, 1), (541270002, 1), (541290002, 1), (541310002, 1), (541320030, 1),
  (541330001, 1), (541340007, 1), (541350002, 1), (551160001, 1), (551180001, 1), (551190001, 1),
  (551200001, 1), (551210001, 1), (551220007, 1), (551220008, 2), (551230005, 1), (551240025, 1),
  (551290010, 1), (551300004, 1), (551350010, 1), (551360001, 1), (551380003, 1), (551440004, 1),
  (561270002, 1), (561290001, 1), (561300030, 1), (561310002, 1), (561330002, 1), (561350002, 1),
  (561360005, 1), (561370002, 1), (571200000, 1), (571250005, 1), (571270001, 1), (571280001, 1),
  (571290002, 1), (571310006, 1), (571320004, 1), (571460001, 1), (581270001, 1), (581310001, 1),
  (581320030, 1), (581330001, 1), (581350004, 1), (581370002, 1), (581380005, 1), (581390002, 1),
  (581510001, 1), (591300002, 1), (591310002, 1), (591330003, 1), (591350004, 1), (591380005, 1),
  (591400003, 1), (591400015, 2), (591420001, 1), (591420024, 2), (591440001, 1), (591480000, 1),
  (591480001, 2), (601290001, 1), (601290003, 2), (601330001, 1), (601340017, 1), (601350001, 1),
  (601370004, 1), (601390002, 1), (601400009, 1), (601410002, 1), (601420004, 1), (601540003, 1),
  (611330005, 1), (611340000, 2), (611340001, 1), (611350000, 1), (611350003, 2), (611360000, 1),
  (611360001, 2), (611390001, 1), (611400008, 1), (611420012, 1), (611480003, 2), (611520004, 1),
  (611520014, 2), (611540000, 1), (611540001, 1), (611560002, 1), (621330000, 1), (621390004, 1),
  (621410002, 1), (621430002, 1), (621430043, 2), (621510012, 1), (621530006, 1), (621590006, 1),
  (631360001, 1), (631400004, 1), (631410001, 1), (631420031, 1), (631460013, 1), (631500001, 1),
  (631510002, 1), (631520001, 1), (631520016, 2), (631540013, 1), (641390001, 1), (641410004, 1),
  (641420019, 1), (641420020, 2), (641430002, 1), (641450002, 1), (641530003, 1), (641530008, 2),
  (641550006, 1), (641570012, 2), (641590002, 1), (651410001, 1), (651420003, 1), (651430001, 1),
  (651440004, 1), (651440006, 1), (651440007, 1), (651450004, 1), (651460022, 1), (651460026, 1),
  (651470001, 1), (651480001, 1), (651490001, 1), (651500002, 1), (651510003, 1), (651520006, 1),
  (651530003, 1), (651540001, 1), (651540002, 2), (651560002, 1), (651560004, 2), (651580003, 1),
  (651580019, 2), (661430003, 1), (661450002, 1), (661460008, 1), (661470002, 1), (661490027, 1),
  (661550009, 1), (661570005, 1), (661590009, 1), (661650002, 1), (671440003, 1), (671480001, 1),
  (671480012, 2), (671490001, 1), (671500001, 1), (671510001, 1), (671520001, 1), (671530001, 1),
  (671550002, 1), (671560001, 1), (671560012, 2), (671580001, 1), (671580007, 2), (671590003, 1),
  (671600001, 1), (671600006, 2), (671610002, 1), (671620003, 1), (671630003, 1), (671640003, 1),
  (671660001, 1), (671680001, 1), (671700001, 1), (681450002, 1), (681470002, 1), (681480008, 1),
  (681490002, 1), (681510021, 1), (681610014, 1), (681670003, 1), (691470001, 1), (691500005, 1),
  (691510001, 1), (691510012, 2), (691520006, 1), (691520018, 2), (691520019, 3), (691530001, 1),
  (691550001, 1), (691600002, 1), (691610001, 1), (691620020, 1), (691640001, 1), (691660006, 1),
  (691770000, 1), (701510001, 1), (701510005, 2), (701510010, 3), (701520006, 1), (701690001, 1),
  (701750007, 1), (701760005, 1), (701770006, 1), (711540015, 1), (711550001, 1), (711550004, 2),
  (711560001, 1), (711580000, 1), (711600001, 1), (711610004, 1), (711620008, 1), (711620009, 1),
  (711660001, 1), (711660002, 2), (711670001, 1), (711680013, 1), (711690001, 1), (711700008, 1),
  (711710001, 1), (711720001, 1), (711720005, 2), (711740003, 1), (711750053, 1), (711760001, 1),
  (711770029, 1), (711770203, 1), (711780003, 1), (711790006, 1), (711800010, 1), (721540006, 1),
  (721560004, 1), (721710001, 1), (721770048, 1), (721770107, 2), (721780005, 1), (721780109, 2),
  (721790005, 1), (721790046, 2), (721800007, 1), (721810025, 2), (721810078, 3), (721820009, 1),
  (721820026, 2), (721840005, 1), (731760012, 1), (731760090, 1), (731780000, 1), (731780059, 2),
  (731780094, 3), (731780139, 4), (731790117, 1), (731800002, 1), (731820001, 1), (731820029, 2),
  (731900002, 1), (741790002, 1), (741830007, 1), (741850006, 1), (741900006, 1), (751620001, 1),
  (751630001, 1), (751650001, 1), (751670001, 1), (751690001, 1), (751720001, 1), (751790137, 1),
  (751820001, 1), (751830058, 1), (751840005, 1), (751860004, 1), (751880007, 1), (751900003, 1),
  (751920002, 1), (751920003, 2), (751940001, 1), (751940002, 2), (751940003, 3), (751960001, 1),
  (761810001, 1), (761820029, 1), (761830002, 1), (761890001, 1), (761900032, 1), (761910001, 1),
  (761920047, 1), (761920112, 2), (761950002, 1), (761950004, 2), (761970001, 1), (761980006, 1),
  (761980010, 2), (771640001, 1), (771650001, 1), (771680001, 1), (771690001, 1), (771700001, 1),
  (771710001, 1), (771720002, 1), (771730000, 1), (771730029, 2), (771740001, 1), (771840007, 1),
  (771860001, 1), (771890006, 1), (771890084, 2), (771900002, 1), (771900037, 2), (771910003, 1),
  (771910071, 2), (771920003, 1), (771920015, 2), (771930002, 1), (771940007, 1), (771940012, 2),
  (771950002, 1), (771960004, 1), (771970002, 1), (771980001, 1), (781710002, 1), (781830001, 1),
  (781840034, 1), (781850002, 1), (781930005, 1), (781950007, 1), (781970009, 1), (781990008, 1),
  (782020003, 1), (791720001, 1), (791730001, 1), (791750001, 1), (791760001, 1), (791760002, 2),
  (791770002, 1), (791790007, 1), (791840003, 1), (791850001, 1), (791870002, 1), (791890003, 1),
  (791900014, 1), (791910004, 1), (791920004, 1), (791920015, 2), (791930004, 1), (791940003, 1),
  (791940008, 2), (791950004, 1), (791950055, 2), (791960003, 1), (791960054, 2), (791970004, 1),
  (791980050, 1), (791990006, 1), (801850004, 1), (801870001, 1), (801890002, 1), (801910035, 1),
  (801930003, 1), (801950003, 1), (801970004, 1), (801990007, 1), (802010013, 1), (802050008, 1),
  (802080004, 1), (802100002, 1), (802100005, 2), (811790001, 1), (811810002, 1), (811830002, 1),
  (811850003, 1), (811860000, 1), (811860005, 2), (811870002, 1), (811880001, 1), (811890001, 1),
  (811900000, 1), (811900001, 2), (811900006, 3), (811910002, 1), (811920002, 1), (811920008, 2),
  (811930002, 1), (811940001, 1), (811950002, 1), (811960006, 1), (811970002, 1), (811980007, 1),
  (811980012, 2), (811990003, 1), (812000010, 1), (812010003, 1), (812040029, 1), (812060045, 1),
  (812070002, 1), (821870001, 1), (821890001, 1), (821910002, 1), (821920011, 1), (821920014, 2),
  (821920017, 3), (821920020, 4), (821920021, 5), (821930001, 1), (821950002, 1), (821970002, 1),
  (821990003, 1), (822010004, 1), (822020014, 1), (822030006, 1), (822030053, 2), (822040021, 1),
  (822050009, 1), (822070003, 1), (822110014, 1), (831860001, 1), (831870002, 1), (831890002, 1),
  (831890003, 2), (831900000, 1), (831900001, 2), (831910002, 1), (831920001, 1), (831930001, 1),
  (831940001, 1), (831940002, 2), (831950001, 1), (831960002, 1), (831960003, 2), (831970001, 1),
  (831980001, 1), (831980003, 2), (831990001, 1), (832000001, 1), (832000003, 2), (832010001, 1),
  (832030006, 1), (832040008, 1), (832040038, 2), (832060016, 1), (832070036, 1), (832080018, 1),
  (832100002, 1), (832110021, 1), (832120005, 1), (832120012, 2), (832150009, 1), (832170005, 1),
  (841920006, 1), (841950002, 1), (841960015, 1), (841970002, 1), (841990002, 1), (842010003, 1),
  (842030005, 1), (842050010, 1), (842050017, 2), (842070014, 1), (842110015, 1), (842120030, 2),
  (851920000, 1), (851920001, 2), (851930001, 1), (851930002, 2), (851940000, 1), (851940001, 2),
  (851950001, 1), (851970001, 1), (851980001, 1), (852000001, 1), (852000003, 2), (852020001, 1),
  (852020002, 2), (852040001, 1), (852110076, 1), (852120004, 1), (852140006, 1), (861950001, 1),
  (861970001, 1), (861990001, 1), (862010001, 1), (862030001, 1), (862070007, 1), (862140004, 1),
  (862140005, 2), (862150013, 1), (871980001, 1), (872010001, 1), (872020001, 1), (872040001, 1),
  (872040002, 2), (872060001, 1), (872060002, 2), (872110013, 1), (872110019, 2), (872140001, 1),
  (872160001, 1), (872180002, 1), (882010000, 1), (882030001, 1), (882050001, 1), (882070001, 1),
  (882130005, 1), (892060001, 1), (892170010, 1), (892220001, 1), (902140004, 1), (902150003, 1),
  (902170001, 1), (912170001, 1), (912340002, 1), (922180001, 1), (922350001, 1), (922380101, 1),
  (932360001, 1), (932380128, 1), (932400001, 1), (932420007, 2), (942370003, 1), (942380041, 1),
  (942380044, 2), (942390090, 1), (942390094, 1), (942400102, 1), (942410106, 1), (942410107, 2),
  (942420044, 1), (942420045, 2), (942440032, 1), (942450024, 1), (952360001, 1), (952380001, 1),
  (952390011, 1), (952400057, 1), (952410075, 1), (952420002, 1), (952420141, 2), (952440001, 1),
  (952440112, 2), (952440113, 3), (952450021, 1), (952460001, 1), (952460008, 2), (962400002, 1),
  (962400003, 2), (962410007, 1), (962420004, 1), (962420005, 2), (962440009, 1), (962440013, 2),
  (962440014, 3), (962450061, 1), (972420002, 1), (972420003, 2), (972440004, 1), (972450003, 1),
  (972460000, 1), (972480001, 1), (982440002, 1), (982460002, 1), (992460000, 1), (992500001, 1),
  (992540002, 1), (992560001, 1), (1002470001, 2), (1002470002, 1), (1002500001, 1),
  (1002500002, 2), (1002530008, 1), (1002560022, 1), (1012450001, 1), (1012460000, 1),
  (1012460001, 2), (1012540000, 1), (1012540001, 2), (1012580001, 1), (1022500001, 1),
  (1022510002, 1), (1022530003, 1), (1022530030, 2), (1022530031, 3), (1022530032, 4),
  (1022540011, 1), (1032530000, 1), (1032530001, 1), (1032550001, 1), (1032550027, 2),
  (1042560007, 1), (1042560009, 2), (1042560012, 3), (1042570002, 1), (1042610001, 1),
  (1052570002, 1), (1052580001, 1), (1062630003, 1), (1062650001, 1), (1072620001, 1),
  (1082650001, 1), (1082670002, 1), (1082770001, 1), (1102700001, 1), (1102710001, 1)]

end Cyclus.Nuc
