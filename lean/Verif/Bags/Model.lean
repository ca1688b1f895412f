import Verif.Ledger

/-!
# Model of the list of voters

The runtime keeps validators and nominators in bags by their stake (/repo/runtime/src/lib.rs:751-760) with the thresholds of
/repo/runtime/src/bag_thresholds.rs:27-228. What pallet-bags-list (polkadot-v1.0.0) does with them is modelled by its documentation: the bag
of a voter is that of the first threshold that is at least the stake, and the list goes through the bags from the highest to the lowest,
through each in the order in which voters were put into it. Stakes are those last told to the list.
-/

namespace Verif.Bags

/-- bag_thresholds.rs:27-228 `THRESHOLDS`. -/
def thresholds : List Nat := [
    10000000000, 11131723507, 12391526824, 13793905044, 15354993703, 17092754435,
    19027181634, 21180532507, 23577583160, 26245913670, 29216225417, 32522694326,
    36203364094, 40300583912, 44861495728, 49938576656, 55590242767, 61881521217,
    68884798439, 76680653006, 85358782760, 95019036859, 105772564622, 117743094401,
    131068357174, 145901671259, 162413706368, 180794447305, 201255379901, 224031924337,
    249386143848, 277609759981, 309027509097, 344000878735, 382932266827, 426269611626,
    474511545609, 528213132664, 587992254562, 654536720209, 728612179460, 811070932564,
    902861736593, 1005040721687, 1118783542717, 1245398906179, 1386343627960, 1543239395225,
    1717891425287, 1912309236147, 2128729767682, 2369643119512, 2637821201686, 2936349627828,
    3268663217709, 3638585517729, 4050372794022, 4508763004364, 5019030312352, 5587045771074,
    6219344874498, 6923202753807, 7706717883882, 8578905263043, 9549800138161, 10630573468586,
    11833660457397, 13172903628838, 14663712098160, 16323238866411, 18170578180087, 20226985226447,
    22516120692255, 25064322999817, 27900911352605, 31058523077268, 34573489143434, 38486252181966,
    42841831811331, 47690342626046, 53087570807094, 59095615988698, 65783605766662, 73228491069308,
    81515931542404, 90741281135191, 101010685227495, 112442301921293, 125167661548718, 139333180038781,
    155101843555358, 172655083789626, 192194865483744, 213946010204502, 238158783103893, 265111772429462,
    295115094915607, 328513963936552, 365692661475578, 407078959611349, 453149042394237, 504432984742966,
    561520851400862, 625069486125324, 695810069225823, 774556530406243, 862214913708369, 959793802308039,
    1068415923109985, 1189331064661951, 1323930457019515, 1473762779014021, 1640551977100649, 1826217100807404,
    2032894383008501, 2262961819074188, 2519066527700738, 2804155208229882, 3121508044894685, 3474776448088622,
    3868025066902796, 4305778556320752, 4793073637166665, 5335517047800242, 5939350054341159, 6611520261667250,
    7359761551432161, 8192683066856378, 9119868268136230, 10151985198186376, 11300909227415580, 12579859689817292,
    14003551982487792, 15588366878604342, 17352539001951086, 19316366631550092, 21502445250375680, 23935927525325748,
    26644812709737600, 29660268798266784, 33016991140790860, 36753601641491664, 40913093136236104, 45543324061189736,
    50697569104240168, 56435132174936472, 62822028745677552, 69931745415056768, 77846085432775824, 86656109914600688,
    96463185576826656, 107380151045315664, 119532615158469088, 133060402202199856, 148119160705543712, 164882154307451552,
    183542255300186560, 204314163786713728, 227436877985347776, 253176444104585088, 281829017427734464, 313724269827691328,
    349229182918168832, 388752270484770624, 432748278778513664, 481723418752617984, 536241190443833600, 596928866512693376,
    664484709541257600, 739686006129409280, 823398010228713984, 916583898614395264, 1020315853041475584, 1135787396594579584,
    1264327126171442688, 1407413999103859968, 1566694349801462272, 1744000832209069824, 1941373506026471680, 2161083309305266176,
    2405658187494662656, 2677912179572818944, 2980977795924034048, 3318342060496414208, 3693886631935247360, 4111932465319354368,
    4577289528371127808, 5095312144166932480, 5671960597112134656, 6313869711009142784, 7028425188266614784, 7823848588596424704,
    8709291924949524480, 9694942965096232960, 10792142450433898496, 12013514580722579456, 13373112266084982784, 14886578817516689408,
    16571327936291497984, 18446744073709551615]

/-- A validator or nominator with the stake `VoteWeightProvider` tells the list (/repo/runtime/src/lib.rs:751-760). -/
structure Voter where
  who : Nat
  stake : Nat
deriving DecidableEq

/-- pallet-bags-list `notional_bag_for`: `partition_point`, here the number of thresholds below the stake; for sorted thresholds
(`sorted`) the same. -/
def bagOf (stake : Nat) : Nat := thresholds.countP (fun t => decide (t < stake))

/-- pallet-bags-list `List::iter`: `l` are the voters in the order in which they were put into their bags. -/
def iter (l : List Voter) : List Voter :=
  (List.range (thresholds.length + 1)).reverse.flatMap fun b => l.filter fun v => decide (bagOf v.stake = b)

/-- The voters an election sees: the first ones, as many as there is room for (staking `get_npos_voters`). -/
def snapshot (n : Nat) (l : List Voter) : List Voter := (iter l).take n

end Verif.Bags
