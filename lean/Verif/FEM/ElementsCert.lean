import Verif.FEM.PropsLagrange
import Verif.FEM.Elements
/-
Certificates for the elements with their standard quadrature rules, computed outside of Lean and checked by the kernel:
gradients and values of the basis functions at the nodes of the rules, and left inverses of these matrices.
-/
namespace Fdapde.FEM
open Fdapde.Quadrature


/-- Derivatives of the basis functions at the nodes, element (1, 1): row `M * k + w`, column `i`. -/
def gra11 : List (List ℚ) :=
  [[-1, 1],
   [-1, 1]]

/-- Values of the basis functions at the nodes, element (1, 1). -/
def val11 : List (List ℚ) :=
  [[788675134594813/1000000000000000, 211324865405187/1000000000000000],
   [52831216351297/250000000000000, 197168783648703/250000000000000]]

/-- Derivatives of the basis functions at the nodes, element (1, 2): row `M * k + w`, column `i`. -/
def gra12 : List (List ℚ) :=
  [[-318649167310371/125000000000000, -68649167310371/125000000000000, 193649167310371/62500000000000],
   [-1, 1, 0],
   [137298334620741/250000000000000, 637298334620741/250000000000000, -387298334620741/125000000000000]]

/-- Values of the basis functions at the nodes, element (1, 2). -/
def val12 : List (List ℚ) :=
  [[85912291827592810318244157641/125000000000000000000000000000, -10912291827592689681755842359/125000000000000000000000000000, 24999999999999939681755842359/62500000000000000000000000000],
   [0, 0, 1],
   [-43649167310371033323692610919/500000000000000000000000000000, 343649167310369966676307389081/500000000000000000000000000000, 100000000000000533323692610919/250000000000000000000000000000]]

/-- Derivatives of the basis functions at the nodes, element (2, 1): row `M * k + w`, column `i`. -/
def gra21 : List (List ℚ) :=
  [[-1, 1, 0],
   [-1, 0, 1],
   [-1, 1, 0],
   [-1, 0, 1],
   [-1, 1, 0],
   [-1, 0, 1]]

/-- Values of the basis functions at the nodes, element (2, 1). -/
def val21 : List (List ℚ) :=
  [[333333333333333/500000000000000, 166666666666667/1000000000000000, 166666666666667/1000000000000000],
   [83333333333333/500000000000000, 666666666666667/1000000000000000, 166666666666667/1000000000000000],
   [83333333333333/500000000000000, 166666666666667/1000000000000000, 666666666666667/1000000000000000]]

/-- Derivatives of the basis functions at the nodes, element (2, 2): row `M * k + w`, column `i`. -/
def gra22 : List (List ℚ) :=
  [[14189698183193/25000000000000, 39189698183193/50000000000000, 0, -67569094549579/50000000000000, -89189698183193/50000000000000, 89189698183193/50000000000000],
   [14189698183193/25000000000000, 0, 39189698183193/50000000000000, -89189698183193/50000000000000, -67569094549579/50000000000000, 89189698183193/50000000000000],
   [-39189698183193/50000000000000, 39189698183193/50000000000000, 0, 0, -10810301816807/25000000000000, 10810301816807/25000000000000],
   [-39189698183193/50000000000000, 0, -14189698183193/25000000000000, -89189698183193/50000000000000, 67569094549579/50000000000000, 89189698183193/50000000000000],
   [-39189698183193/50000000000000, -14189698183193/25000000000000, 0, 67569094549579/50000000000000, -89189698183193/50000000000000, 89189698183193/50000000000000],
   [-39189698183193/50000000000000, 0, 39189698183193/50000000000000, -10810301816807/25000000000000, 0, 10810301816807/25000000000000],
   [-283423786490229/125000000000000, -158423786490229/250000000000000, 0, 725271359470687/250000000000000, -91576213509771/250000000000000, 91576213509771/250000000000000],
   [-283423786490229/125000000000000, 0, -158423786490229/250000000000000, -91576213509771/250000000000000, 725271359470687/250000000000000, 91576213509771/250000000000000],
   [15842378649023/25000000000000, -158423786490229/250000000000000, 0, -1/250000000000000, -816847572980459/250000000000000, 816847572980459/250000000000000],
   [15842378649023/25000000000000, 0, 566847572980459/250000000000000, -91576213509771/250000000000000, -725271359470689/250000000000000, 91576213509771/250000000000000],
   [15842378649023/25000000000000, 566847572980459/250000000000000, 0, -725271359470689/250000000000000, -91576213509771/250000000000000, 91576213509771/250000000000000],
   [15842378649023/25000000000000, 0, -158423786490229/250000000000000, -816847572980459/250000000000000, -1/250000000000000, 816847572980459/250000000000000]]

/-- Values of the basis functions at the nodes, element (2, 2). -/
def val22 : List (List ℚ) :=
  [[-423652465469889275012324751/5000000000000000000000000000, -964167556310239275012324751/20000000000000000000000000000, -964167556310239275012324751/20000000000000000000000000000, 964167556310239275012324751/5000000000000000000000000000, 964167556310239275012324751/5000000000000000000000000000, 7954802262009060724987675249/10000000000000000000000000000],
   [-964167556310239275012324751/20000000000000000000000000000, -964167556310239275012324751/20000000000000000000000000000, -423652465469889275012324751/5000000000000000000000000000, 7954802262009060724987675249/10000000000000000000000000000, 964167556310239275012324751/5000000000000000000000000000, 964167556310239275012324751/5000000000000000000000000000],
   [-964167556310239275012324751/20000000000000000000000000000, -423652465469889275012324751/5000000000000000000000000000, -964167556310239275012324751/20000000000000000000000000000, 964167556310239275012324751/5000000000000000000000000000, 7954802262009060724987675249/10000000000000000000000000000, 964167556310239275012324751/5000000000000000000000000000],
   [64704042748458914614312472441/125000000000000000000000000000, -37401903874098335385687527559/500000000000000000000000000000, -37401903874098335385687527559/500000000000000000000000000000, 37401903874098335385687527559/125000000000000000000000000000, 37401903874098335385687527559/125000000000000000000000000000, 8386202880787164614312472441/250000000000000000000000000000],
   [-374019038740980185381145471/5000000000000000000000000000, -37401903874098335385687527559/500000000000000000000000000000, 258816170993836792152395850681/500000000000000000000000000000, 838620288078707303809896267/25000000000000000000000000000, 7480380774819594550001558443/25000000000000000000000000000, 74803807748196762347588564889/250000000000000000000000000000],
   [-374019038740980185381145471/5000000000000000000000000000, 258816170993836792152395850681/500000000000000000000000000000, -37401903874098335385687527559/500000000000000000000000000000, 7480380774819594550001558443/25000000000000000000000000000, 838620288078707303809896267/25000000000000000000000000000, 74803807748196762347588564889/250000000000000000000000000000]]

/-- Derivatives of the basis functions at the nodes, element (2, 3): row `M * k + w`, column `i`. -/
def gra23 : List (List ℚ) :=
  [[-242965945097426408177503958027/500000000000000000000000000000, 430465945097426408177503958027/125000000000000000000000000000, 0, 221356001618602308177503958027/100000000000000000000000000000, -323209730423161345677503958027/62500000000000000000000000000, 44108630993754341822496041973/250000000000000000000000000000, 115083772296694091822496041973/500000000000000000000000000000, 150571342948163966822496041973/125000000000000000000000000000, -115083772296694091822496041973/500000000000000000000000000000, -345251316890082275467488125919/250000000000000000000000000000],
   [-242965945097426408177503958027/500000000000000000000000000000, 0, 242965945097426408177503958027/500000000000000000000000000000, 305465945097426408177503958027/125000000000000000000000000000, -796990803794486658177503958027/125000000000000000000000000000, -26866510309185408177503958027/500000000000000000000000000000, 26866510309185408177503958027/500000000000000000000000000000, 796990803794486658177503958027/125000000000000000000000000000, -305465945097426408177503958027/125000000000000000000000000000, 0],
   [-242965945097426408177503958027/500000000000000000000000000000, 242965945097426408177503958027/500000000000000000000000000000, 0, -26866510309185408177503958027/500000000000000000000000000000, 26866510309185408177503958027/500000000000000000000000000000, 305465945097426408177503958027/125000000000000000000000000000, -796990803794486658177503958027/125000000000000000000000000000, -305465945097426408177503958027/125000000000000000000000000000, 796990803794486658177503958027/125000000000000000000000000000, 0],
   [-242965945097426408177503958027/500000000000000000000000000000, 0, 430465945097426408177503958027/125000000000000000000000000000, 44108630993754341822496041973/250000000000000000000000000000, 115083772296694091822496041973/500000000000000000000000000000, 221356001618602308177503958027/100000000000000000000000000000, -323209730423161345677503958027/62500000000000000000000000000, -115083772296694091822496041973/500000000000000000000000000000, 150571342948163966822496041973/125000000000000000000000000000, -345251316890082275467488125919/250000000000000000000000000000],
   [-430465945097426408177503958027/125000000000000000000000000000, 242965945097426408177503958027/500000000000000000000000000000, 0, 323209730423161345677503958027/62500000000000000000000000000, -221356001618602308177503958027/100000000000000000000000000000, -150571342948163966822496041973/125000000000000000000000000000, 115083772296694091822496041973/500000000000000000000000000000, -44108630993754341822496041973/250000000000000000000000000000, -115083772296694091822496041973/500000000000000000000000000000, 345251316890082275467488125919/250000000000000000000000000000],
   [-430465945097426408177503958027/125000000000000000000000000000, 0, 242965945097426408177503958027/500000000000000000000000000000, -150571342948163966822496041973/125000000000000000000000000000, 115083772296694091822496041973/500000000000000000000000000000, 323209730423161345677503958027/62500000000000000000000000000, -221356001618602308177503958027/100000000000000000000000000000, -115083772296694091822496041973/500000000000000000000000000000, -44108630993754341822496041973/250000000000000000000000000000, 345251316890082275467488125919/250000000000000000000000000000],
   [809276617492916592977784612133/2000000000000000000000000000000, -237106469971657294879616906893/2000000000000000000000000000000, 0, -2802802380926388426373162289859/2000000000000000000000000000000, 2230632233405129128274994584619/2000000000000000000000000000000, -55609444231437967628009577327/100000000000000000000000000000, 5656959109547220544620238413/20000000000000000000000000000, 225318217517853237818192806803/100000000000000000000000000000, -5656959109547220544620238413/20000000000000000000000000000, -42427193321603817547545807369/25000000000000000000000000000],
   [809276617492916592977784612133/2000000000000000000000000000000, 0, -8092766174929120544620238413/20000000000000000000000000000, -1118553234985835416697688838863/1000000000000000000000000000000, -2275732116951953705120383093107/2000000000000000000000000000000, -1677884795583476945537976158673/2000000000000000000000000000000, 5243389986198351271944423087/6250000000000000000000000000, 2275732116951953705120383093107/2000000000000000000000000000000, 111855323498582187818192806803/100000000000000000000000000000, 13538515760770833/1000000000000000000000000000000],
   [809276617492916592977784612133/2000000000000000000000000000000, -8092766174929120544620238413/20000000000000000000000000000, 0, -1677884795583476945537976158673/2000000000000000000000000000000, 5243389986198351271944423087/6250000000000000000000000000, -1118553234985835416697688838863/1000000000000000000000000000000, -2275732116951953705120383093107/2000000000000000000000000000000, 111855323498582187818192806803/100000000000000000000000000000, 2275732116951953705120383093107/2000000000000000000000000000000, 13538515760770833/1000000000000000000000000000000],
   [809276617492916592977784612133/2000000000000000000000000000000, 0, -237106469971657294879616906893/2000000000000000000000000000000, -55609444231437967628009577327/100000000000000000000000000000, 5656959109547220544620238413/20000000000000000000000000000, -2802802380926388426373162289859/2000000000000000000000000000000, 2230632233405129128274994584619/2000000000000000000000000000000, -5656959109547220544620238413/20000000000000000000000000000, 225318217517853237818192806803/100000000000000000000000000000, -42427193321603817547545807369/25000000000000000000000000000],
   [592766174929120544620238413/5000000000000000000000000000, -8092766174929120544620238413/20000000000000000000000000000, 0, -2788290291756383044620238413/2500000000000000000000000000, 5605604761852740544620238413/4000000000000000000000000000, -11265910875892695544620238413/5000000000000000000000000000, 5656959109547220544620238413/20000000000000000000000000000, 5560944423143729455379761587/10000000000000000000000000000, -5656959109547220544620238413/20000000000000000000000000000, 16970877328641661633860715239/10000000000000000000000000000],
   [592766174929120544620238413/5000000000000000000000000000, 0, -8092766174929120544620238413/20000000000000000000000000000, -11265910875892695544620238413/5000000000000000000000000000, 5656959109547220544620238413/20000000000000000000000000000, -2788290291756383044620238413/2500000000000000000000000000, 5605604761852740544620238413/4000000000000000000000000000, -5656959109547220544620238413/20000000000000000000000000000, 5560944423143729455379761587/10000000000000000000000000000, 16970877328641661633860715239/10000000000000000000000000000],
   [-4373624232478622589583656227/7812500000000000000000000000, 1481611663285054438707372364427/2000000000000000000000000000000, 0, 109369376997937514670734245143/62500000000000000000000000000, -3861783923704527525237452214891/2000000000000000000000000000000, 11890702808768085495854700861/12500000000000000000000000000, 7702747000470450595571659677/80000000000000000000000000000, 787399391803454620911533512161/200000000000000000000000000000, -7702747000470450595571659677/80000000000000000000000000000, -977650636743743988845208725937/200000000000000000000000000000],
   [-4373624232478622589583656227/7812500000000000000000000000, 0, -39429629372633050595571659677/80000000000000000000000000000, 121933337869254033954064995327/62500000000000000000000000000, -5210134155377645438707372364427/2000000000000000000000000000000, 46889553172523908195942754121/62500000000000000000000000000, 120984567261917717110507870833/400000000000000000000000000000, 5210134155377645438707372364427/2000000000000000000000000000000, 493864348524602020911533512161/200000000000000000000000000000, -4420255148531074647822707486037/1000000000000000000000000000000],
   [39429629372633050595571659677/80000000000000000000000000000, 1481611663285054438707372364427/2000000000000000000000000000000, 0, -1026242432051556294800925322707/400000000000000000000000000000, 2663859762656900770407962757183/2000000000000000000000000000000, -2577213508111420754145299139/12500000000000000000000000000, 1570495108914564910416343773/7812500000000000000000000000, 42135944739784934795935004673/62500000000000000000000000000, -1570495108914564910416343773/7812500000000000000000000000, -14624938599613915512604254489/31250000000000000000000000000],
   [39429629372633050595571659677/80000000000000000000000000000, 0, 4373624232478622589583656227/7812500000000000000000000000, -493864348524602020911533512161/200000000000000000000000000000, -5210134155377645438707372364427/2000000000000000000000000000000, -120984567261917717110507870833/400000000000000000000000000000, -46889553172523908195942754121/62500000000000000000000000000, 5210134155377645438707372364427/2000000000000000000000000000000, -121933337869254033954064995327/62500000000000000000000000000, 4420255148531074647822707486037/1000000000000000000000000000000],
   [-4373624232478622589583656227/7812500000000000000000000000, -39429629372633050595571659677/80000000000000000000000000000, 0, 46889553172523908195942754121/62500000000000000000000000000, 120984567261917717110507870833/400000000000000000000000000000, 121933337869254033954064995327/62500000000000000000000000000, -5210134155377645438707372364427/2000000000000000000000000000000, 493864348524602020911533512161/200000000000000000000000000000, 5210134155377645438707372364427/2000000000000000000000000000000, -4420255148531074647822707486037/1000000000000000000000000000000],
   [-4373624232478622589583656227/7812500000000000000000000000, 0, 1481611663285054438707372364427/2000000000000000000000000000000, 11890702808768085495854700861/12500000000000000000000000000, 7702747000470450595571659677/80000000000000000000000000000, 109369376997937514670734245143/62500000000000000000000000000, -3861783923704527525237452214891/2000000000000000000000000000000, -7702747000470450595571659677/80000000000000000000000000000, 787399391803454620911533512161/200000000000000000000000000000, -977650636743743988845208725937/200000000000000000000000000000],
   [-1481611663285054438707372364427/2000000000000000000000000000000, -39429629372633050595571659677/80000000000000000000000000000, 0, -2663859762656900770407962757183/2000000000000000000000000000000, 1026242432051556294800925322707/400000000000000000000000000000, -42135944739784934795935004673/62500000000000000000000000000, 1570495108914564910416343773/7812500000000000000000000000, 2577213508111420754145299139/12500000000000000000000000000, -1570495108914564910416343773/7812500000000000000000000000, 14624938599613915512604254489/31250000000000000000000000000],
   [-1481611663285054438707372364427/2000000000000000000000000000000, 0, 4373624232478622589583656227/7812500000000000000000000000, -787399391803454620911533512161/200000000000000000000000000000, 7702747000470450595571659677/80000000000000000000000000000, 3861783923704527525237452214891/2000000000000000000000000000000, -109369376997937514670734245143/62500000000000000000000000000, -7702747000470450595571659677/80000000000000000000000000000, -11890702808768085495854700861/12500000000000000000000000000, 977650636743743988845208725937/200000000000000000000000000000],
   [39429629372633050595571659677/80000000000000000000000000000, 4373624232478622589583656227/7812500000000000000000000000, 0, -120984567261917717110507870833/400000000000000000000000000000, -46889553172523908195942754121/62500000000000000000000000000, -493864348524602020911533512161/200000000000000000000000000000, -5210134155377645438707372364427/2000000000000000000000000000000, -121933337869254033954064995327/62500000000000000000000000000, 5210134155377645438707372364427/2000000000000000000000000000000, 4420255148531074647822707486037/1000000000000000000000000000000],
   [39429629372633050595571659677/80000000000000000000000000000, 0, 1481611663285054438707372364427/2000000000000000000000000000000, -2577213508111420754145299139/12500000000000000000000000000, 1570495108914564910416343773/7812500000000000000000000000, -1026242432051556294800925322707/400000000000000000000000000000, 2663859762656900770407962757183/2000000000000000000000000000000, -1570495108914564910416343773/7812500000000000000000000000, 42135944739784934795935004673/62500000000000000000000000000, -14624938599613915512604254489/31250000000000000000000000000],
   [-1481611663285054438707372364427/2000000000000000000000000000000, 4373624232478622589583656227/7812500000000000000000000000, 0, 3861783923704527525237452214891/2000000000000000000000000000000, -109369376997937514670734245143/62500000000000000000000000000, -787399391803454620911533512161/200000000000000000000000000000, 7702747000470450595571659677/80000000000000000000000000000, -11890702808768085495854700861/12500000000000000000000000000, -7702747000470450595571659677/80000000000000000000000000000, 977650636743743988845208725937/200000000000000000000000000000],
   [-1481611663285054438707372364427/2000000000000000000000000000000, 0, -39429629372633050595571659677/80000000000000000000000000000, -42135944739784934795935004673/62500000000000000000000000000, 1570495108914564910416343773/7812500000000000000000000000, -2663859762656900770407962757183/2000000000000000000000000000000, 1026242432051556294800925322707/400000000000000000000000000000, -1570495108914564910416343773/7812500000000000000000000000, 2577213508111420754145299139/12500000000000000000000000000, 14624938599613915512604254489/31250000000000000000000000000]]

/-- Values of the basis functions at the nodes, element (2, 3). -/
def val23 : List (List ℚ) :=
  [[11576998847716646319597925026013394292697759/250000000000000000000000000000000000000000000, 13758406043705041180402074973986605707302241/31250000000000000000000000000000000000000000, 11576998847716646319597925026013394292697759/250000000000000000000000000000000000000000000, -25140682185092097973585771580290182878093277/125000000000000000000000000000000000000000000, 25140682185092097973585771580290182878093277/62500000000000000000000000000000000000000000, -3630260889081424982038238912959817121906723/250000000000000000000000000000000000000000000, -3630260889081424982038238912959817121906723/250000000000000000000000000000000000000000000, 25140682185092097973585771580290182878093277/62500000000000000000000000000000000000000000, -25140682185092097973585771580290182878093277/125000000000000000000000000000000000000000000, 5869136748180208996830235415209817121906723/62500000000000000000000000000000000000000000],
   [11576998847716646319597925026013394292697759/250000000000000000000000000000000000000000000, 11576998847716646319597925026013394292697759/250000000000000000000000000000000000000000000, 13758406043705041180402074973986605707302241/31250000000000000000000000000000000000000000, -3630260889081424982038238912959817121906723/250000000000000000000000000000000000000000000, -3630260889081424982038238912959817121906723/250000000000000000000000000000000000000000000, -25140682185092097973585771580290182878093277/125000000000000000000000000000000000000000000, 25140682185092097973585771580290182878093277/62500000000000000000000000000000000000000000, -25140682185092097973585771580290182878093277/125000000000000000000000000000000000000000000, 25140682185092097973585771580290182878093277/62500000000000000000000000000000000000000000, 5869136748180208996830235415209817121906723/62500000000000000000000000000000000000000000],
   [13758406043705041180402074973986605707302241/31250000000000000000000000000000000000000000, 11576998847716646319597925026013394292697759/250000000000000000000000000000000000000000000, 11576998847716646319597925026013394292697759/250000000000000000000000000000000000000000000, 25140682185092097973585771580290182878093277/62500000000000000000000000000000000000000000, -25140682185092097973585771580290182878093277/125000000000000000000000000000000000000000000, 25140682185092097973585771580290182878093277/62500000000000000000000000000000000000000000, -25140682185092097973585771580290182878093277/125000000000000000000000000000000000000000000, -3630260889081424982038238912959817121906723/250000000000000000000000000000000000000000000, -3630260889081424982038238912959817121906723/250000000000000000000000000000000000000000000, 5869136748180208996830235415209817121906723/62500000000000000000000000000000000000000000],
   [78703371634916672333447073206283592356912279/2000000000000000000000000000000000000000000000, -125347444104799615774046557312102134232975949/2000000000000000000000000000000000000000000000, 78703371634917481610064566120607312261139/2000000000000000000000000000000000000000000, -283654926157928068703998523244294531926085807/2000000000000000000000000000000000000000000000, 567309852315859512380525494129505761541010477/2000000000000000000000000000000000000000000000, -14102049239839447928893756708555624514465103/200000000000000000000000000000000000000000000, -1410204923983961571737331505602325252404243/20000000000000000000000000000000000000000000, 56730985231585723664840854217580064115791737/200000000000000000000000000000000000000000000, -2836549261579303058104684949015894115429927/20000000000000000000000000000000000000000000, 84133591665794886188936930873578877038507533/100000000000000000000000000000000000000000000],
   [78703371634916672333447073206283592356912279/2000000000000000000000000000000000000000000000, 78703371634917481610064566120607312261139/2000000000000000000000000000000000000000000, -125347444104799615774046557312102134232975949/2000000000000000000000000000000000000000000000, -14102049239839447928893756708555624514465103/200000000000000000000000000000000000000000000, -1410204923983961571737331505602325252404243/20000000000000000000000000000000000000000000, -283654926157928068703998523244294531926085807/2000000000000000000000000000000000000000000000, 567309852315859512380525494129505761541010477/2000000000000000000000000000000000000000000000, -2836549261579303058104684949015894115429927/20000000000000000000000000000000000000000000, 56730985231585723664840854217580064115791737/200000000000000000000000000000000000000000000, 84133591665794886188936930873578877038507533/100000000000000000000000000000000000000000000],
   [-15668430513099981610064566120607312261139/250000000000000000000000000000000000000000, 78703371634917481610064566120607312261139/2000000000000000000000000000000000000000000, 78703371634917481610064566120607312261139/2000000000000000000000000000000000000000000, 141827463078965435753189724811821936783417/500000000000000000000000000000000000000000, -141827463078965435753189724811821936783417/1000000000000000000000000000000000000000000, 141827463078965435753189724811821936783417/500000000000000000000000000000000000000000, -141827463078965435753189724811821936783417/1000000000000000000000000000000000000000000, -141020492398395591477822195838178063216583/2000000000000000000000000000000000000000000, -141020492398395591477822195838178063216583/2000000000000000000000000000000000000000000, 420667958328973582400818222288178063216583/500000000000000000000000000000000000000000],
   [20073597884001506709035519008849505043109/488281250000000000000000000000000000000000, -52386453198710979667676763774346499752642209/2000000000000000000000000000000000000000000000, 182973217046077372948453641182252876720837/16000000000000000000000000000000000000000000, -999624061682054278704833207517222444698427/7812500000000000000000000000000000000000000, 17305802461607704809640669369732891459297527/125000000000000000000000000000000000000000000, -97481401277641269360197259181510759474161/1562500000000000000000000000000000000000000, -25585179580125564368948701680872275917777/5000000000000000000000000000000000000000000, 323395581067258294990247407243262647181833239/400000000000000000000000000000000000000000000, -4902817715899301762847511949839836736128123/80000000000000000000000000000000000000000000, 3543169172303661716322999368308533531175461/12500000000000000000000000000000000000000000],
   [182973217046077372948453641182252876720837/16000000000000000000000000000000000000000000, -52386453198710979667676763774346499752642209/2000000000000000000000000000000000000000000000, 20073597884001506709035519008849505043109/488281250000000000000000000000000000000000, -4902817715899301762847511949839836736128123/80000000000000000000000000000000000000000000, 323395581067258294990247407243262647181833239/400000000000000000000000000000000000000000000, -25585179580125564368948701680872275917777/5000000000000000000000000000000000000000000, -97481401277641269360197259181510759474161/1562500000000000000000000000000000000000000, 17305802461607704809640669369732891459297527/125000000000000000000000000000000000000000000, -999624061682054278704833207517222444698427/7812500000000000000000000000000000000000000, 3543169172303661716322999368308533531175461/12500000000000000000000000000000000000000000],
   [20073597884001506709035519008849505043109/488281250000000000000000000000000000000000, 182973217046077372948453641182252876720837/16000000000000000000000000000000000000000000, -52386453198710979667676763774346499752642209/2000000000000000000000000000000000000000000000, -97481401277641269360197259181510759474161/1562500000000000000000000000000000000000000, -25585179580125564368948701680872275917777/5000000000000000000000000000000000000000000, -999624061682054278704833207517222444698427/7812500000000000000000000000000000000000000, 17305802461607704809640669369732891459297527/125000000000000000000000000000000000000000000, -4902817715899301762847511949839836736128123/80000000000000000000000000000000000000000000, 323395581067258294990247407243262647181833239/400000000000000000000000000000000000000000000, 3543169172303661716322999368308533531175461/12500000000000000000000000000000000000000000],
   [-52386453198710979667676763774346499752642209/2000000000000000000000000000000000000000000000, 182973217046077372948453641182252876720837/16000000000000000000000000000000000000000000, 20073597884001506709035519008849505043109/488281250000000000000000000000000000000000, 323395581067258294990247407243262647181833239/400000000000000000000000000000000000000000000, -4902817715899301762847511949839836736128123/80000000000000000000000000000000000000000000, 17305802461607704809640669369732891459297527/125000000000000000000000000000000000000000000, -999624061682054278704833207517222444698427/7812500000000000000000000000000000000000000, -25585179580125564368948701680872275917777/5000000000000000000000000000000000000000000, -97481401277641269360197259181510759474161/1562500000000000000000000000000000000000000, 3543169172303661716322999368308533531175461/12500000000000000000000000000000000000000000],
   [182973217046077372948453641182252876720837/16000000000000000000000000000000000000000000, 20073597884001506709035519008849505043109/488281250000000000000000000000000000000000, -52386453198710979667676763774346499752642209/2000000000000000000000000000000000000000000000, -25585179580125564368948701680872275917777/5000000000000000000000000000000000000000000, -97481401277641269360197259181510759474161/1562500000000000000000000000000000000000000, -4902817715899301762847511949839836736128123/80000000000000000000000000000000000000000000, 323395581067258294990247407243262647181833239/400000000000000000000000000000000000000000000, -999624061682054278704833207517222444698427/7812500000000000000000000000000000000000000, 17305802461607704809640669369732891459297527/125000000000000000000000000000000000000000000, 3543169172303661716322999368308533531175461/12500000000000000000000000000000000000000000],
   [-52386453198710979667676763774346499752642209/2000000000000000000000000000000000000000000000, 20073597884001506709035519008849505043109/488281250000000000000000000000000000000000, 182973217046077372948453641182252876720837/16000000000000000000000000000000000000000000, 17305802461607704809640669369732891459297527/125000000000000000000000000000000000000000000, -999624061682054278704833207517222444698427/7812500000000000000000000000000000000000000, 323395581067258294990247407243262647181833239/400000000000000000000000000000000000000000000, -4902817715899301762847511949839836736128123/80000000000000000000000000000000000000000000, -97481401277641269360197259181510759474161/1562500000000000000000000000000000000000000, -25585179580125564368948701680872275917777/5000000000000000000000000000000000000000000, 3543169172303661716322999368308533531175461/12500000000000000000000000000000000000000000]]

/-- Derivatives of the basis functions at the nodes, element (3, 1): row `M * k + w`, column `i`. -/
def gra31 : List (List ℚ) :=
  [[-1, 1, 0, 0],
   [-1, 0, 1, 0],
   [-1, 0, 0, 1],
   [-1, 1, 0, 0],
   [-1, 0, 1, 0],
   [-1, 0, 0, 1],
   [-1, 1, 0, 0],
   [-1, 0, 1, 0],
   [-1, 0, 0, 1],
   [-1, 1, 0, 0],
   [-1, 0, 1, 0],
   [-1, 0, 0, 1]]

/-- Values of the basis functions at the nodes, element (3, 1). -/
def val31 : List (List ℚ) :=
  [[138196601125009/1000000000000000, 585410196624969/1000000000000000, 138196601125011/1000000000000000, 138196601125011/1000000000000000],
   [585410196624967/1000000000000000, 138196601125011/1000000000000000, 138196601125011/1000000000000000, 138196601125011/1000000000000000],
   [138196601125009/1000000000000000, 138196601125011/1000000000000000, 138196601125011/1000000000000000, 585410196624969/1000000000000000],
   [138196601125009/1000000000000000, 138196601125011/1000000000000000, 585410196624969/1000000000000000, 138196601125011/1000000000000000]]

/-- Derivatives of the basis functions at the nodes, element (3, 2): row `M * k + w`, column `i`. -/
def gra32 : List (List ℚ) :=
  [[0, 0, 0, 0, 1, -1, 0, 1, 0, -1],
   [0, 0, 0, 0, 1, 0, -1, 0, 1, -1],
   [0, 0, 0, 0, 0, -1, -1, 1, 1, 0],
   [41666666666667/125000000000000, 1, 0, 0, 166666666666667/250000000000000, -166666666666667/250000000000000, -166666666666667/125000000000000, 166666666666667/250000000000000, 0, -166666666666667/250000000000000],
   [41666666666667/125000000000000, 0, -83333333333333/250000000000000, 0, 2, -1/250000000000000, -2, 0, 166666666666667/250000000000000, -166666666666667/250000000000000],
   [41666666666667/125000000000000, 0, 0, -83333333333333/250000000000000, 0, -166666666666667/250000000000000, -2, 2, 166666666666667/250000000000000, -1/250000000000000],
   [41666666666667/125000000000000, -83333333333333/250000000000000, 0, 0, 2, -2, -1/250000000000000, 166666666666667/250000000000000, 0, -166666666666667/250000000000000],
   [41666666666667/125000000000000, 0, 1, 0, 166666666666667/250000000000000, -166666666666667/125000000000000, -166666666666667/250000000000000, 0, 166666666666667/250000000000000, -166666666666667/250000000000000],
   [41666666666667/125000000000000, 0, 0, -83333333333333/250000000000000, 0, -2, -166666666666667/250000000000000, 166666666666667/250000000000000, 2, -1/250000000000000],
   [41666666666667/125000000000000, -83333333333333/250000000000000, 0, 0, 166666666666667/250000000000000, -166666666666667/250000000000000, -1/250000000000000, 2, 0, -2],
   [41666666666667/125000000000000, 0, -83333333333333/250000000000000, 0, 166666666666667/250000000000000, -1/250000000000000, -166666666666667/250000000000000, 0, 2, -2],
   [41666666666667/125000000000000, 0, 0, 1, 0, -166666666666667/250000000000000, -166666666666667/250000000000000, 166666666666667/250000000000000, 166666666666667/250000000000000, -166666666666667/125000000000000],
   [-249999999999999/250000000000000, -83333333333333/250000000000000, 0, 0, 166666666666667/250000000000000, -166666666666667/250000000000000, 83333333333333/62500000000000, 166666666666667/250000000000000, 0, -166666666666667/250000000000000],
   [-249999999999999/250000000000000, 0, -83333333333333/250000000000000, 0, 166666666666667/250000000000000, 83333333333333/62500000000000, -166666666666667/250000000000000, 0, 166666666666667/250000000000000, -166666666666667/250000000000000],
   [-249999999999999/250000000000000, 0, 0, -83333333333333/250000000000000, 0, -166666666666667/250000000000000, -166666666666667/250000000000000, 166666666666667/250000000000000, 166666666666667/250000000000000, 83333333333333/62500000000000]]

/-- Values of the basis functions at the nodes, element (3, 2). -/
def val32 : List (List ℚ) :=
  [[-1/8, -1/8, -1/8, -1/8, 1/4, 1/4, 1/4, 1/4, 1/4, 1/4],
   [-13888888888888861111111111111/125000000000000000000000000000, 0, -55555555555555611111111111111/500000000000000000000000000000, -55555555555555611111111111111/500000000000000000000000000000, 166666666666667/500000000000000, 13888888888888861111111111111/125000000000000000000000000000, 83333333333333/250000000000000, 166666666666667/500000000000000, 27777777777777888888888888889/250000000000000000000000000000, 13888888888888861111111111111/125000000000000000000000000000],
   [-13888888888888861111111111111/125000000000000000000000000000, -55555555555555611111111111111/500000000000000000000000000000, 0, -55555555555555611111111111111/500000000000000000000000000000, 166666666666667/500000000000000, 83333333333333/250000000000000, 13888888888888861111111111111/125000000000000000000000000000, 27777777777777888888888888889/250000000000000000000000000000, 166666666666667/500000000000000, 13888888888888861111111111111/125000000000000000000000000000],
   [-13888888888888861111111111111/125000000000000000000000000000, -55555555555555611111111111111/500000000000000000000000000000, -55555555555555611111111111111/500000000000000000000000000000, 0, 27777777777777888888888888889/250000000000000000000000000000, 13888888888888861111111111111/125000000000000000000000000000, 13888888888888861111111111111/125000000000000000000000000000, 166666666666667/500000000000000, 166666666666667/500000000000000, 83333333333333/250000000000000],
   [-499999999999999/500000000000000000000000000000, -55555555555555611111111111111/500000000000000000000000000000, -55555555555555611111111111111/500000000000000000000000000000, -55555555555555611111111111111/500000000000000000000000000000, 27777777777777888888888888889/250000000000000000000000000000, 83333333333333333333333333333/250000000000000000000000000000, 83333333333333333333333333333/250000000000000000000000000000, 27777777777777888888888888889/250000000000000000000000000000, 27777777777777888888888888889/250000000000000000000000000000, 83333333333333333333333333333/250000000000000000000000000000]]

/-- Certificate: the differences of the nodal values from the gradients at the nodes of the rule, element (1, 1). -/
def rig11 : List (List ℚ) :=
  [[0, 0],
   [1, 0]]

/-- Certificate: the nodal values from the values at the nodes of the rule, element (1, 1). -/
def mas11 : List (List ℚ) :=
  [[262891711531604/192450089729875, -70441621801729/192450089729875],
   [-211324865405188/577350269189625, 788675134594813/577350269189625]]

/-- Certificate: the differences of the nodal values from the gradients at the nodes of the rule, element (1, 2). -/
def rig12 : List (List ℚ) :=
  [[0, 0, 0],
   [0, 1, 0],
   [62500000000000/193649167310371, 68649167310371/387298334620742, 0]]

/-- Certificate: the nodal values from the values at the nodes of the rule, element (1, 2). -/
def mas12 : List (List ℚ) :=
  [[24647175961687250000000000000/16666666666666671958201035577, -49999999999999823012678995089/74999999999999926987321004911, 6261203632181000000000000000/33333333333333257850105488767],
   [2561401485892250000000000000/13636363636363640693073574563, -50000000000000323012678995089/74999999999999926987321004911, 40331742482761000000000000000/27272727272727210968268127173],
   [0, 1, 0]]

/-- Certificate: the differences of the nodal values from the gradients at the nodes of the rule, element (2, 1). -/
def rig21 : List (List ℚ) :=
  [[0, 0, 0, 0, 0, 0],
   [1, 0, 0, 0, 0, 0],
   [0, 1, 0, 0, 0, 0]]

/-- Certificate: the nodal values from the values at the nodes of the rule, element (2, 1). -/
def mas21 : List (List ℚ) :=
  [[416666666666667/250000000000000, -166666666666667/500000000000000, -166666666666667/500000000000000],
   [-83333333333333/250000000000000, 833333333333333/500000000000000, -166666666666667/500000000000000],
   [-83333333333333/250000000000000, -166666666666667/500000000000000, 833333333333333/500000000000000]]

/-- Certificate: the differences of the nodal values from the gradients at the nodes of the rule, element (2, 2). -/
def rig22 : List (List ℚ) :=
  [[0, 0, 0, 0, 0, 0, 0, 0, 0, 0, 0, 0],
   [-10810301816807/67569094549579, 0, 89189698183193/67569094549579, 0, -10810301816807/67569094549579, 0, 0, 0, 0, 0, 0, 0],
   [-89189698183193/67569094549579, 78379396366386/67569094549579, 89189698183193/67569094549579, -10810301816807/67569094549579, 0, 0, 0, 0, 0, 0, 0, 0],
   [-60810301816807/135138189099158, 0, 89189698183193/135138189099158, 0, 39189698183193/135138189099158, 0, 0, 0, 0, 0, 0, 0],
   [-89189698183193/135138189099158, 14189698183193/67569094549579, 89189698183193/135138189099158, 39189698183193/135138189099158, 0, 0, 0, 0, 0, 0, 0, 0],
   [-25000000000000/67569094549579, 14189698183193/67569094549579, 39189698183193/67569094549579, 39189698183193/135138189099158, 39189698183193/135138189099158, 0, 0, 0, 0, 0, 0, 0]]

/-- Certificate: the nodal values from the values at the nodes of the rule, element (2, 2). -/
def mas22 : List (List ℚ) :=
  [[15382815100702308350666074315983038378743228245417181937/121756582602169387685402118485946084239368323518995973796, -109699372818052450974217512474245331626416/171791912580407213129753746828637638266417, -109699372818052450974217512474245331626416/171791912580407213129753746828637638266417, 612174879133479404330042680336240379886654782041483122725/326726896286827328071641226791902952504658434743859959328, 511000965168546116882763182263733989883275/3687950972669585422716391908875957909610048, 511000965168546116882763182263733989883275/3687950972669585422716391908875957909610048],
   [-299888356440068685229346984464845610312839462481962298243/469632532894081923929408171302934896351849247858984470356, -209921849508044940656844399410938779039631662245809854448/328742773025858274426913654111005328116527348144535767901, 41533600771896478288548868334137582041495137754190145552/328742773025858274426913654111005328116527348144535767901, 1222320886538882450925279217494239079883619115120044313575/8821626199744337857934313123381379717625777738084218901856, 977856709231125105656528219123830334187689191534184198575/7057300959795490201282702914466386442616930120640087015744, 13222977389283141198068040984839307822983195191534184198575/7057300959795490201282702914466386442616930120640087015744],
   [-299888356440068685229346984464845610312839462481962298243/469632532894081923929408171302934896351849247858984470356, 41533600771896478288548868334137582041495137754190145552/328742773025858274426913654111005328116527348144535767901, -209921849508044940656844399410938779039631662245809854448/328742773025858274426913654111005328116527348144535767901, 1222320886538882450925279217494239079883619115120044313575/8821626199744337857934313123381379717625777738084218901856, 13222977389283141198068040984839307822983195191534184198575/7057300959795490201282702914466386442616930120640087015744, 977856709231125105656528219123830334187689191534184198575/7057300959795490201282702914466386442616930120640087015744],
   [-378257771310398286326175880887062872660634845791245362567/1095809243419524489168619066373514758154314911670963764164, 149086637495753770729670563997155016105967079251396715184/109580924341952758142304551370335109372175782714845255967, -37825777131039815847995857781998923713845120748603284816/109580924341952758142304551370335109372175782714845255967, 220249762210021449369757851178788222803883038373348104525/2940542066581445952644771041127126572541925912694739633952, 423562926493853330685324572095288533101111897178061399525/2352433653265163400427567638155462147538976706880029005248, 176199809768017782068257035681201447900362897178061399525/2352433653265163400427567638155462147538976706880029005248],
   [-378257771310398286326175880887062872660634845791245362567/1095809243419524489168619066373514758154314911670963764164, -37825777131039815847995857781998923713845120748603284816/109580924341952758142304551370335109372175782714845255967, 149086637495753770729670563997155016105967079251396715184/109580924341952758142304551370335109372175782714845255967, 220249762210021449369757851178788222803883038373348104525/2940542066581445952644771041127126572541925912694739633952, 176199809768017782068257035681201447900362897178061399525/2352433653265163400427567638155462147538976706880029005248, 423562926493853330685324572095288533101111897178061399525/2352433653265163400427567638155462147538976706880029005248],
   [4472599124872599098381957815496080727810123762626263912299/3287427730258573467505857199120544274462944735012891292492, -1601103396457951607705631518404623953913232/4638381639670994754503351164373216233193259, -1601103396457951607705631518404623953913232/4638381639670994754503351164373216233193259, 1588360974351950161380164748744239079883619115120044313575/8821626199744337857934313123381379717625777738084218901856, 7458250306331841813895693061120817726848425/99574676262078806413342581539650863559471296, 7458250306331841813895693061120817726848425/99574676262078806413342581539650863559471296]]

/-- Certificate: the differences of the nodal values from the gradients at the nodes of the rule, element (2, 3). -/
def rig23 : List (List ℚ) :=
  [[0, 0, 0, 0, 0, 0, 0, 0, 0, 0, 0, 0, 0, 0, 0, 0, 0, 0, 0, 0, 0, 0, 0, 0],
   [3343409337860194027168240834518268299927528105600771306169/8777150359131533017654888418030129868633774360664540589095, -14601362650082825478363138540638047729144997918447134772002/57325551454594898779591754125709530137205908955392126491655, -693917102625130616360907070826543833445180687852859330754422536842451147/3557962530263754603518206843289634409902838317023204870031011403572943965, 0, 7235198897695253593481692746735662616842188669595154369607/57325551454594898779591754125709530137205908955392126491655, 14601362650082825478363138540638047729144997918447134772002/57325551454594898779591754125709530137205908955392126491655, 105192572803388253466169042128504132957392248/16378280467875727299353005116326580680645039839633986597195, 0, 11266582005612441173489711209832440474659665177921496480256/16378280467875727299353005116326580680645039839633986597195, 0, 0, 0, 0, 0, 0, 0, 0, 0, 0, 0, 0, 0, 0, 0],
   [-11527462218193879248483987274034656793135735772419506929974/8222459372737900224798280432919842704515782759454603430073945290360048255, -650063511609673396290775715879570733688327779088430418278842422949619998647914764226183/3333109398585260463137540046489645093881397526522357121410844942691895953186236392150320, -158077150307572195967590363938332171251087114734788943685871859731342996686167847148736453957784297049/620617406122785233078371860440279330431836392254944102353061855211831867548821821120087083728056760880, 144654531435565680405799455115/379748467578385813335734337363, 848974634281382850341642632438947231041992563706957741350358064251619200819876554351013/3333109398585260463137540046489645093881397526522357121410844942691895953186236392150320, 420679938258288431820467216675627643614616619034756137371082100063526799898995414666283/3333109398585260463137540046489645093881397526522357121410844942691895953186236392150320, 105192572803388253466169042128504132957392248/16378280467875727299353005116326580680645039839633986597195, 29997597160661837019722662003/43607640668209789239906598908, -79495826130382252978948169672880522373404766760869234652455790113082977/8817508264275106424193539011883107728934521520552443804004145711941363036460600282260, 0, 0, 0, 0, 0, 0, 0, 0, 0, 0, 0, 0, 0, 0, 0],
   [-5112674600205277391630474791158283803656589183197686081493/78994353232183797158893995762271168817703969245980865301855, -34418344228171690011567358039961342882019402266024212948018/1547789889274062267048977361394157313704559541795587415274685, 5301675184494487306121744400758414142029320822028204553559197168417939677/96064988317121374294991584768820129067376634559626531490837307896469487055, 0, 433403114790750379682693832522669059652030281526356389326463/1547789889274062267048977361394157313704559541795587415274685, 34418344228171690011567358039961342882019402266024212948018/1547789889274062267048977361394157313704559541795587415274685, 132055827554731926180183627663044373179120010537196616530232/442213572632644637082531138140817678377416075670117638124265, 0, -104261484880524630858979406730029905125689745398706531677696/442213572632644637082531138140817678377416075670117638124265, 0, 0, 0, 0, 0, 0, 0, 0, 0, 0, 0, 0, 0, 0, 0],
   [1065376201135084724929683651396521096125995133604627837014/78994353232183797158893995762271168817703969245980865301855, -247448054950648349276247292121703772444324383532048425896036/1547789889274062267048977361394157313704559541795587415274685, -6906243276407342112538110092130458075379641368647529423230605663164120646/96064988317121374294991584768820129067376634559626531490837307896469487055, 0, 341424139652248963470292703504290023203609979552712778652926/1547789889274062267048977361394157313704559541795587415274685, 247448054950648349276247292121703772444324383532048425896036/1547789889274062267048977361394157313704559541795587415274685, 132055827554733749588329191511325568700499167074393233060464/442213572632644637082531138140817678377416075670117638124265, 0, 91033457093126716927239548846462059146247241202586936644608/442213572632644637082531138140817678377416075670117638124265, 0, 0, 0, 0, 0, 0, 0, 0, 0, 0, 0, 0, 0, 0, 0],
   [-14471255168125959271921665812441510280293474677906138802161451775562369766/222006403063923306069553571688835753021926134505274292611996522839721302885, -1948959635103968149979738239565967444204977779956228378639869852530906100581232878035647/89993953761802032504713581255220417534797733216103642278092813452681190736028382588058640, 915046456112376041736876257625664304937968638680083140544193744908144519087325946201488664379941326559/16756669965315201293116040231887541921659582590883490763532670090719460423818189170242351260657532543760, 4736242160518123652195096035/10253208624616416960064827108801, 11801619101393891740972485947868662002557837846234750463825913711670899137628888989159117/89993953761802032504713581255220417534797733216103642278092813452681190736028382588058640, 15399167674305822040656541240504731144314589552290448740940692942844768316840958731996547/89993953761802032504713581255220417534797733216103642278092813452681190736028382588058640, 132055827554731926180183627663044373179120010537196616530232/442213572632644637082531138140817678377416075670117638124265, 215953515748896283177503958027/1177406298041664309477478170516, -99796847125470953236961952299726150336832465041013829212280530314166349352111017746793/238072723135427873453225553320843908681232081054915982708111934222416801984436207621020, 0, 0, 0, 0, 0, 0, 0, 0, 0, 0, 0, 0, 0, 0, 0],
   [-14471255168126159088961464055645914641790105489817277023783403551124739532/222006403063923306069553571688835753021926134505274292611996522839721302885, -6692686152369446087647725432461783080965076640534907309852350829538743044206232878035647/44996976880901016252356790627610208767398866608051821139046406726340595368014191294029320, -695627008975439490629887143214980724460382525933156822025256323632526045919092339068569710620058673441/8378334982657600646558020115943770960829791295441745381766335045359730211909094585121175630328766271880, 806627025080609247304390192070/10253208624616416960064827108801, 12093958268589306978073516851381065319899365605689730813738443144967735972503888989159117/44996976880901016252356790627610208767398866608051821139046406726340595368014191294029320, 5025593105906195699301019756994548669400722494090444551635340921708254757965958731996547/44996976880901016252356790627610208767398866608051821139046406726340595368014191294029320, 132055827554733749588329191511325568700499167074393233060464/442213572632644637082531138140817678377416075670117638124265, 367965945097426408177503958027/588703149020832154738739085258, -49898423562736165608839522630195145220840521788354962634965689068639110727111017746793/119036361567713936726612776660421954340616040527457991354055967111208400992218103810510, 0, 0, 0, 0, 0, 0, 0, 0, 0, 0, 0, 0, 0, 0, 0],
   [2994142348741170785148979387812028491971517483162589811310679572597852652/222006403063923306069553571688835753021926134505274292611996522839721302885, -2586056914463020574212173971501193205366618700969861563512097353836171481217325090207231/89993953761802032504713581255220417534797733216103642278092813452681190736028382588058640, -905404194232666942685158355455683341789346816082585693828560823187719511124744858298494279605834091713/16756669965315201293116040231887541921659582590883490763532670090719460423818189170242351260657532543760, 4736242160518123652195096035/10253208624616416960064827108801, 18244408504906250153487988953653564710252217460722192799665963992358908321932492219298861/89993953761802032504713581255220417534797733216103642278092813452681190736028382588058640, 16036264953664874464888976972439956905476230473304081925812920444150033697477050944168131/89993953761802032504713581255220417534797733216103642278092813452681190736028382588058640, 14672869728303834096946057553462776359176445512398872176744/49134841403627181898059015348979742041935119518901959791585, 215953515748896283177503958027/1177406298041664309477478170516, 441083809522435240935770041325911614299375734320518190138142753349174238198820706599759/2142654508218850861079029979887595178131088729494243844373007408001751217859925868589180, 0, 0, 0, 0, 0, 0, 0, 0, 0, 0, 0, 0, 0, 0, 0],
   [-14368704237525659440466882658580773779774208654907282580777587877044628323/222006403063923306069553571688835753021926134505274292611996522839721302885, -5889089606550576138557142492342430006976514966236559984435902582214908633365255931078543/44996976880901016252356790627610208767398866608051821139046406726340595368014191294029320, 403074058950672945315841774772067916200944673412355288618616947267560505224747846597162553383497471991/8378334982657600646558020115943770960829791295441745381766335045359730211909094585121175630328766271880, 806627025080609247304390192070/10253208624616416960064827108801, 12918340169198236558978046146171565212452063147221040136520549543870050662579789796694053/44996976880901016252356790627610208767398866608051821139046406726340595368014191294029320, 4221996560087325750210436816875195595412160819792097226218892674384420347124981785039443/44996976880901016252356790627610208767398866608051821139046406726340595368014191294029320, 14672869728303834096946057553462776359176445512398872176744/49134841403627181898059015348979742041935119518901959791585, 367965945097426408177503958027/588703149020832154738739085258, -252588742678003551312541295025841003989553165477968288599758843090061974952044193140913/1071327254109425430539514989943797589065544364747121922186503704000875608929962934294590, 0, 0, 0, 0, 0, 0, 0, 0, 0, 0, 0, 0, 0, 0, 0],
   [16625396139674793980976329627087955912906344957785433892252363898517741443/222006403063923306069553571688835753021926134505274292611996522839721302885, -9264253538494657757400690173067268826092174554878167182964993848483840302899278984121439/89993953761802032504713581255220417534797733216103642278092813452681190736028382588058640, -3195201464960003321946857953599676915972980994878329156877477449857276652192060399530718807612946382577/16756669965315201293116040231887541921659582590883490763532670090719460423818189170242351260657532543760, 4736242160518123652195096035/10253208624616416960064827108801, 11524641171294493706671580042745195452398389872347963185481751194554278941780690604228989/89993953761802032504713581255220417534797733216103642278092813452681190736028382588058640, 22714461577696511648077493174006032526201786327212387545265816938797702519159004838082339/89993953761802032504713581255220417534797733216103642278092813452681190736028382588058640, -150777384013580046006884686534513730965275562925606766939536/442213572632644637082531138140817678377416075670117638124265, 215953515748896283177503958027/1177406298041664309477478170516, 1418499566205500706763801979909061223670386947456143057460789881315126955014910773439311/2142654508218850861079029979887595178131088729494243844373007408001751217859925868589180, 0, 0, 0, 0, 0, 0, 0, 0, 0, 0, 0, 0, 0, 0, 0]]

/-- Certificate: the nodal values from the values at the nodes of the rule, element (2, 3). -/
def mas23 : List (List ℚ) :=
  [[34022547115366598247961093521752385941605605679716564343916547658831242871985897200919487058954463167945384778860054779903128885653822330086439661015580120631341860130/315743152820655384588311916117513934629874204390985254008757224130216912006083035632228815240807766350514860906759754025935605504036636771208309950609634226348894724947, -7528886428471503067016829467334532617181363707093874177477019105431561237121420189705781127726768869333961839248646544076844638481997970007990303307474983256066939390/315743152820655384588311916117513934629874204390985254008757224130216912006083035632228815240807766350514860906759754025935605504036636771208309950609634226348894724947, 7732022133620959739674436527620705694729701254033034599580755378562125958487686937177821614453667582935380672505437829419819419031538439758915422366951842393998930661929266252208345/4199332752340539549585464060386237869787062453012218586912464622123524396786058512747070236517794597568783882341072033851957273877141819137145713242358675428590054017811116971199384, 132751116639827039366616690153854530986938702007813238102078695233834180081584642935192920084519019903770537437430070618899081699224170935020219542071421084130117675760/84168709190740860261903295447497905908755164924167009787554163779490245729198991223072466098080047211914211992422254589836439741795204590053372939312434560598114440001, 58715860769104499654226315895531277161930613351968957082669626085396352627282900530154093931690120291813984172690027166358584535593343014671193870852437630722494135184/84168709190740860261903295447497905908755164924167009787554163779490245729198991223072466098080047211914211992422254589836439741795204590053372939312434560598114440001, -2383034067414439534619372152578199062963733630295799905033035850578601578067595064302570433273915367039199592208924890038518918531556236836728635679541193867118707354129805751417883/1119430188966498540919747534333045600954104006593646318152059095252278829786782553886403217274977156851115995991429424818374664112546362260508212875884648422092777925375080941585672, -910915102165054477689987282879513965330065533306017810758764323137730603925022106292044001264713939856847782301046345681931043192329326260460597838597972195727270850/1530366562942421129001787149855004313109363720514067642557795399315395199394568039689870712725294485618004110368340018391744948477713330363350977342785798845035721229, -2664708802464752029244516330544511965234960233546297195791918633798712133269369601551863757195509064998007655595968170094776380333516355401738370189158352251452200640/7471789689660056100420490202233256352239834635451036137193942243716341267632302782015251126835261312134961244739542442736166513155894495303419477614777723772821462471, -273855355673596583201617587017143004591743167961281431175063139022940572578860194479761203348516309337119048503164842910413268204886698964477352675259645433473401826/1530366562942421129001787149855004313109363720514067642557795399315395199394568039689870712725294485618004110368340018391744948477713330363350977342785798845035721229, 4010775520706664296042772504280513197197127398173754710529526282605201694975019807514547904844433340486802991018526583228857336325234339691007474334163954336169637920/67246107206940504903784411820099307170158511719059325234745480193447071408690725038137260141517351809214651202655881984625498618403050457730775298532999513955393162239, 0, 0],
   [689674730020203563292532438126524807283755648226288222115323508637352007422638934336054606203759141786748674287610450317735739314342710964555457031951472120631341860130/315743152820655384588311916117513934629874204390985254008757224130216912006083035632228815240807766350514860906759754025935605504036636771208309950609634226348894724947, -5844209736883843137938304761180531365191310351796561297848591076835817065564744797070926183677722868944713583055488948699744522661296725421469323084230497608009562770/45106164688665054941187416588216276375696314912997893429822460590030987429440433661746973605829680907216408700965679146562229357719519538744044278658519175192699246421, -544089295311135631566961386394103681007211763709626058088021058214691473624041410410907844602454014531463310976930303974946323640050148348976070444979041678064660702570733747791655/4199332752340539549585464060386237869787062453012218586912464622123524396786058512747070236517794597568783882341072033851957273877141819137145713242358675428590054017811116971199384, 13810870623298736966558420243777104180570326518235517051796100677926779789316846877614024428318338570635926812199286762542254826733448919691433105739153084130117675760/84168709190740860261903295447497905908755164924167009787554163779490245729198991223072466098080047211914211992422254589836439741795204590053372939312434560598114440001, -760785370328849486034267122663637124285929662416035351913729682243614910189927588073527710345972819280085126841408645278759213546501792228886281943511169277505864816/84168709190740860261903295447497905908755164924167009787554163779490245729198991223072466098080047211914211992422254589836439741795204590053372939312434560598114440001, -10118322106380627949487235637352263122040994270081690994294790827507936650061636937167493046491279983773264370449093424878455499554592647057224331447242974118581700629805751417883/1119430188966498540919747534333045600954104006593646318152059095252278829786782553886403217274977156851115995991429424818374664112546362260508212875884648422092777925375080941585672, -651786165371471651599530499887223207839136481397515308996738200425475418270288827333518624674832868067187868540633191890101172465979299254228393191828175379231971552316196777674550/666746802882366038621800966656052609746669356183048923267995159375845784469447272624023580711722478090393180491760002579659272000591834152241689209431246069892537269546759098277567, -268382538682370763853455235814775086866967054408627964187521877594880733823454210803871132312359558978288341470192208070577691493286230468300655413095266055721603162564229648962880/274542801186856604138388633328962839307452087840078968404468595037112970075654759315774415587179843919573662555430589297506759059067225827393636733295218969955750640401606687526057, 4678548690909936117135342423555041855773348247830595095440747670684609464572925030025098228464462563833012078182610911612538407109469428679657162371470029500555517087117844426719098/10585472996164250599778335556879582641938464840490271000344691941311517890654922148791229715093285805721664836281274041597874894011922830232316369822453588475364781130633039367354583, 294748567527325921852121148265476074551376445707855861083533572754980113753386506262620872425979873309884953915129802527788987565053727501737581648318020150476240134874236441762065120/666884798758347787786035140083413706442123284950887073021715592302625627111260095373847472050877005760464884685720264620666118322751138304635931298814576073947981211229881480143338729, 0, 0],
   [34022547115366486612131227648148766909898978091288588431357749615620181751688643466438084470761590034692583712458013916191177482624159130722966019206230120631341860130/315743152820655384588311916117513934629874204390985254008757224130216912006083035632228815240807766350514860906759754025935605504036636771208309950609634226348894724947, 83051733288133522385764379160713411627402946757428328705609323200670070975102529931908779815918259960789028064987047737828230743346265986753477060424922502391990437230/45106164688665054941187416588216276375696314912997893429822460590030987429440433661746973605829680907216408700965679146562229357719519538744044278658519175192699246421, -100132969108884471678690503577756096123653132174684467784178683414344694643615250536869556822037651966119868826751212377030195109027854984869901887635566998543885428070733747791655/4199332752340539549585464060386237869787062453012218586912464622123524396786058512747070236517794597568783882341072033851957273877141819137145713242358675428590054017811116971199384, 132751116639827025350294590490124289395360093579680827158894510620194067685340709564482154092380398359027537255250486268236695861232280809223958787071461084130117675760/84168709190740860261903295447497905908755164924167009787554163779490245729198991223072466098080047211914211992422254589836439741795204590053372939312434560598114440001, -179177677526290745463440964670284528829197572503601533698507985630188311483917299267812790072311686357830400510554708341438536844706799671468337466109243969277505864816/84168709190740860261903295447497905908755164924167009787554163779490245729198991223072466098080047211914211992422254589836439741795204590053372939312434560598114440001, 780911430721100958013649429420292200357557833074129078660489045723870784607133870239064797823233313117422848478726128299337752499946915350038350931545113951372925287870194248582117/1119430188966498540919747534333045600954104006593646318152059095252278829786782553886403217274977156851115995991429424818374664112546362260508212875884648422092777925375080941585672, -237785878410703339054570142784214861594503050834510469580602882633398974572617185713291278868697762033303021448837487866414837746829268349530208117435001427950538266316196777674550/666746802882366038621800966656052609746669356183048923267995159375845784469447272624023580711722478090393180491760002579659272000591834152241689209431246069892537269546759098277567, -163415216881745189071655762099470427529550345481000810060844063633334780445740970458235819185524029603341428473332885580450552918002256662008189178999403383377798540564229648962880/274542801186856604138388633328962839307452087840078968404468595037112970075654759315774415587179843919573662555430589297506759059067225827393636733295218969955750640401606687526057, 631351876435938285360775919505920698553842019171344200520498275397488362649030656079010122562640315941519740851315558423384877996601273559954500296045466496495516071517844426719098/10585472996164250599778335556879582641938464840490271000344691941311517890654922148791229715093285805721664836281274041597874894011922830232316369822453588475364781130633039367354583, -119337404632093845208918558765020280479870819904635129423413516799581097510647695800188666515455514623493130857596949873939903240480964694231635769239063377595140102411763558237934880/666884798758347787786035140083413706442123284950887073021715592302625627111260095373847472050877005760464884685720264620666118322751138304635931298814576073947981211229881480143338729, 0, 0],
   [-743229634111168859069913336097929491248501721721673527628718063584449580086218499453545766094501718531789962975870615405982187353212763076704936566364720400225462811810/19891818627701289229063650715403377881682074876632071002551705120203665456383231244830415360170889280082436237125864503633943146754308116586123526888406956259980367671661, -153729456110053776366806619333462060213695047763595487423542372356857487448667232673724573667463068468249503773411875535307359485726126949696392813841071047913807363530/8525065126157695383884421735172876235006603518556601858236445051515856624164241962070178011501809691463901244482513358700261348608989192822624368666460124111420157573569, -654444339259928242868053347388864492476665926689258550861836810999659922592051805652911917266549467092045505751007104180119352876098834749384330042725498230467595650985408703624755/88185987799151330541294745268110995265528311513256590325161757064594012332507228767688474966873686548944461529162512710891102751419978201880059978089532184000391134374033456395187064, -505973226343595866350602838674470557539993770236357437776252419113663352107623001102666261188513330836475494934646403059759775412484693441476894670826033233267528809040/1767542893005558065499969204397456024083858463407507205538637439369295160313178815684521788059680991450198451840867346386565234577699296391120831725561125772560403240021, 280461678541738744703226056159996743253895603864474372637807728941777971509317159332400847462923991365870428331714498841957730741982041434540504379284092276502447216656/757518382716667742357129659027481153178796484317503088087987474015412211562790921007652194882720424907227907931800291308527957676156841310480356453811911045383029960009, -43260246810832334657223626304599426937129710244178859548992605409642787480042598162494068116797722345443060779969280123678194444086055740590570303757636244875475924586677762339326629/70524101904889408077944094662981872860108552415399718043579723000893566276567300894843402688323560881620307747460053763557603839090420822412017411180732850591845009298630099319897336, 631399157062230473845637133288450865337770456216820877243362294705352051922374657303833945816869087838649285880734832714344317598251619727462504455806715670527415255154229000929050/6000721225941294347596208699904473487720024205647440309411956434382612060225025453616212226405502302813538624425840023216933448005326507370175202884881214629032835425920831884498103, 2294645428260303050785232736645625333005880988981127160756777270604862994145192339443738711158558901750793276989289990979030056758017432144138085064478035411964831572453532115338560/17296196474771966060718483899724658876369481533924975009481521487338117114766249836893788181992330166933140740992127125742925820721235227125799114197598795107212290345301221314141591, -62271816227875225023641621272894490873980272359448517178811483199710808762908943263160577247123612416896927759361678973147019077288560112800848008212518820721381084094375801116696826/666884798758347787786035140083413706442123284950887073021715592302625627111260095373847472050877005760464884685720264620666118322751138304635931298814576073947981211229881480143338729, 60824879755996108201445130929983676239164771457564647490254203846730489750538243596059167681520066226845928177432664087995281481881209260669262952890655059811270507689122895831010102560/42013742321775910630520213825255063505853766951905885600368082315065414508009386008552390739205251362909287735200376671101965454333321713192063671825318292658722816307482533249030339927, 0, 0],
   [-84003390832729939612026986572975843768596158754695345998104968514149160282208719961225773030419249485747055037549341113331122783582033917618523925570329466741820937270/6630606209233763076354550238467792627227358292210690334183901706734555152127743748276805120056963093360812079041954834544647715584769372195374508962802318753326789223887, -398974620927517857641493071721366923258122997160434327315982584970151553541256103066721406913040018039039537720074978071832662667049838921177047438380317547913807363530/8525065126157695383884421735172876235006603518556601858236445051515856624164241962070178011501809691463901244482513358700261348608989192822624368666460124111420157573569, -98421115758416558025943371599481090937167209590024901269133692402213790319224600385140347792973773749886699860337249626737499552323324834874926575413895578304245067495136234541585/29395329266383776847098248422703665088509437171085530108387252354864670777502409589229491655624562182981487176387504236963700917139992733960019992696510728000130378124677818798395688, -3438687986912630180895596926490655926697224389211527305420322578843264310499460202422262373829340547716748874507898957466854290559759242646335199175455727699802586427120/5302628679016674196499907613192368072251575390222521616615912318107885480939536447053565364179042974350595355522602039159695703733097889173362495176683377317681209720063, 1664253600905488478807153323467326411499408166764010698649589107164620499906922316191849402496287405338276291171210253814430857957561814985682270628348714524721570576/9352078798971206695767032827499767323195018324907445531950462642165582858799887913674718455342227467990467999158028287759604415755022732228152548812492728955346048889, -4153825490574361528117649477931552922557616013064971555470925772101339607266611448431860531652844775994424184696838861279785851701429733607470665447663276122473285863177762339326629/70524101904889408077944094662981872860108552415399718043579723000893566276567300894843402688323560881620307747460053763557603839090420822412017411180732850591845009298630099319897336, 1841654799089548020276262606383376803026670829567463529746036183518884059039182818094374207528846770300003799029026141274297633245940949025891486878028903742179610928874185426050/1555742540058854090117535588864122756075561831093780820958655371876973497095376969456055021660685782210917421147440006019204968001380946355230608155339574163082586962275771229314323, 25552985414007016913436488832971621517979970519892962793009689229674347927577225713670174063710686091749790658645895951751783994948882461647177389116198636950751916165453532115338560/17296196474771966060718483899724658876369481533924975009481521487338117114766249836893788181992330166933140740992127125742925820721235227125799114197598795107212290345301221314141591, 16801557678962930480097725770287311157851270385783777548681623917434606346650501674830647236961822454709197237038280249671131858067326686578416252434984972968936082065674732961101058/222294932919449262595345046694471235480707761650295691007238530767541875703753365124615824016959001920154961561906754873555372774250379434878643766271525357982660403743293826714446243, 533668103434295003106321044102031265252041590959313369430568268108263161782115105240807671212365026146117286457134382525701588713356354806437034085214509715212272697699965277003367520/14004580773925303543506737941751687835284588983968628533456027438355138169336462002850796913068417120969762578400125557033988484777773904397354557275106097552907605435827511083010113309, 0, 0],
   [-42865927885809577042514261569468595016578731972808971398393977343017450672753388297946806938523477869662286216233544384090226752486129333106061743502044407200676388435430/59675455883103867687190952146210133645046224629896213007655115360610996369149693734491246080512667840247308711377593510901829440262924349758370580665220868779941103014983, 298125859657907494716847432103375469034092725337463062272464819888991563365943690128610818818978051378746298539597817825782564124555644879275076449078522650695397545490/2841688375385898461294807245057625411668867839518867286078815017171952208054747320690059337167269897154633748160837786233420449536329730940874789555486708037140052524523, 145662605600726502763913789031096254975576557019151241576249673096485092004881483285071637899910378604359879003158205139428208328526865942176737724329372973578533493811543773889125735/264557963397453991623884235804332985796584934539769770975485271193782036997521686303065424900621059646833384587487538132673308254259934605640179934268596552001173403122100369185561192, -22856771460380599830088283124995904551291244718913434287931198742906747568289134163232067270049075393306510406405260609238207302985438851511447644704499631699802586427120/5302628679016674196499907613192368072251575390222521616615912318107885480939536447053565364179042974350595355522602039159695703733097889173362495176683377317681209720063, 503528192422196612805712190066772424960184741991185844774234855294400427867564430051349790901620517450282010607634517213364132987486730693622150826786893876502447216656/757518382716667742357129659027481153178796484317503088087987474015412211562790921007652194882720424907227907931800291308527957676156841310480356453811911045383029960009, 31396540519532453313609599696587749597091694207571198457379547973288120027489590115951970739785903497747031772097709230873886640970035091034681582985559678651406531738831748237239053/10074871700698486868277727808997410408586936059342816863368531857270509468081042984977628955474794411660043963922864823365371977012917260344573915882961835798835001328375728474271048, 78502953969576670794074894956207952078588340259299195256834709195532031148925860054612805733108199174547520180452698842368302412940439549112526405656004062670602005792079603006503350/42005048581589060433173460899331314414040169439532082165883695040678284421575178175313485584838516119694770370980880162518534136037285551591226420194168502403229847981445823191486721, 37198753085977859079598769001256789497024966683166285394024622437902012482180639268908951673561022933976336305634375435747607941405849708329421411939585151531184728634453532115338560/17296196474771966060718483899724658876369481533924975009481521487338117114766249836893788181992330166933140740992127125742925820721235227125799114197598795107212290345301221314141591, -1195854183133113719265059707565548417015549597071354604633932115810148918748777191169490472377203340090335279666639263881157948140463932307231063214755592331419923316265927403350090478/2000654396275043363358105420250241119326369854852661219065146776907876881333780286121542416152631017281394654057160793861998354968253414913907793896443728221843943633689644440430016187, -76868462361044404110381713334104440499118325484166548117423674572828238453460378417152919310995941606982923097533116068272457819562621895140943611439676316278228477293883104168989897440/42013742321775910630520213825255063505853766951905885600368082315065414508009386008552390739205251362909287735200376671101965454333321713192063671825318292658722816307482533249030339927, 0, 0],
   [-42865927885809558741062777244459380727898432670620093658520530350406666995415543565026414996145142587466847849350394433019542190876998114665960582936033457200676388435430/59675455883103867687190952146210133645046224629896213007655115360610996369149693734491246080512667840247308711377593510901829440262924349758370580665220868779941103014983, 1564601298514495818598743844168081342258839171093648971000880789191731423053957611611914849799781092034489312634367847185768443650273224511122065627924320150695397545490/2841688375385898461294807245057625411668867839518867286078815017171952208054747320690059337167269897154633748160837786233420449536329730940874789555486708037140052524523, 27755179262574706803577455325260315935978306819314264850303238276043840732081203372430598448485919209317054770355547159051511567279454265057245914983037376335134355921543773889125735/264557963397453991623884235804332985796584934539769770975485271193782036997521686303065424900621059646833384587487538132673308254259934605640179934268596552001173403122100369185561192, -7618923820126866354716098044403463363501497303177167777070474467273235782407157433997519037135876111433640329194050330638315801861089514717723040186499597233267528809040/1767542893005558065499969204397456024083858463407507205538637439369295160313178815684521788059680991450198451840867346386565234577699296391120831725561125772560403240021, 2360670915105116267177651140632010658377636127875386757925924221283181831742717427473027111677835784589953643905529480498740368846586302635203556815901849076502447216656/757518382716667742357129659027481153178796484317503088087987474015412211562790921007652194882720424907227907931800291308527957676156841310480356453811911045383029960009, 46877903381058280617662989585673818771684393006336060449296236369567173175322495873076934643132597162854727022474787150947605272153464411664877799731730214748170007653822237660673371/70524101904889408077944094662981872860108552415399718043579723000893566276567300894843402688323560881620307747460053763557603839090420822412017411180732850591845009298630099319897336, 90339828923088711276342447417348181374452895736715081256688602070266502324474349428218434871694290251991973191650808269002066828002515954442649831173320486354859047507079603006503350/42005048581589060433173460899331314414040169439532082165883695040678284421575178175313485584838516119694770370980880162518534136037285551591226420194168502403229847981445823191486721, 32324745752178761960216345077493360072069182853073121866617786769943832172425851091149923152844448371294121490765161090530483852534173501764602506907318869189191710289453532115338560/17296196474771966060718483899724658876369481533924975009481521487338117114766249836893788181992330166933140740992127125742925820721235227125799114197598795107212290345301221314141591, -3660402969573536501420218054085058672307704611982393077373882111412186771285992694598750420084008220319025537182082577847055673655055150673364040628954918581791135389374527403350090478/2000654396275043363358105420250241119326369854852661219065146776907876881333780286121542416152631017281394654057160793861998354968253414913907793896443728221843943633689644440430016187, -8370979281931743229315725538001060745616390825130261430337583704954564318361633566629985292097196778664856831398280733107529550517833667662749675947795533677787050624304034722996632480/14004580773925303543506737941751687835284588983968628533456027438355138169336462002850796913068417120969762578400125557033988484777773904397354557275106097552907605435827511083010113309, 0, 0],
   [-252010172498190408214802181899122149743069108369434119641580000014096620002168726052506292870660162776083342083686860529361880912576344339488518254707338400225462811810/19891818627701289229063650715403377881682074876632071002551705120203665456383231244830415360170889280082436237125864503633943146754308116586123526888406956259980367671661, -28543528600276281433613848882174754580120117843802480649637110682241395639256106902691406757815392274281773869890677294460117661660385377636079901842925047913807363530/8525065126157695383884421735172876235006603518556601858236445051515856624164241962070178011501809691463901244482513358700261348608989192822624368666460124111420157573569, -37144084507690641841232363482018379239757272503216173172233458548282186350784308215691086393477211653716118064591396559652131369521346482684741870716773972344412030492368678332622795/793673890192361974871652707412998957389754803619309312926455813581346110992565058909196274701863178940500153762462614398019924762779803816920539802805789656003520209366301107556683576, -3438687986912630254894437668420830825746473721398972986967841793590958685288677217435329265216196848062988373572435219428115618305820459928056675030454887699802586427120/5302628679016674196499907613192368072251575390222521616615912318107885480939536447053565364179042974350595355522602039159695703733097889173362495176683377317681209720063, -4957484325241779167635030945373788966797594668266095808316266316274644523265102312185746967618063658884562361995489676064225158528279229308703343332088769277505864816/84168709190740860261903295447497905908755164924167009787554163779490245729198991223072466098080047211914211992422254589836439741795204590053372939312434560598114440001, 12550149872427309059233507061013270181313249803424734508803544197105574083445336741690498903162159299463757583176558687682592432418673831339396233102677188065850999618822237660673371/70524101904889408077944094662981872860108552415399718043579723000893566276567300894843402688323560881620307747460053763557603839090420822412017411180732850591845009298630099319897336, 186171750873479549760864793154655258775048842535392656560401225922442769422854584286333721464531589051734785421912192341476420736050211828457731769268650612255887673630238809019510050/126015145744767181299520382697993943242120508318596246497651085122034853264725534525940456754515548359084311112942640487555602408111856654773679260582505507209689543944337469574460163, 61424604181464385043531640622732382723339626773906823225203513459587320664139714263736379506538378027971041957479209359516919908532555430478310254186063826276693461360596346015680/51888589424315898182155451699173976629108444601774925028444564462014351344298749510681364545976990500799422222976381377228777462163705681377397342592796385321636871035903663942424773, 76238300490612309958453132224521055923569687139676599724652584939971659254719048997729156479558760349918850412011919563752468825458106326310426887492673106349212665482472596649909522/2000654396275043363358105420250241119326369854852661219065146776907876881333780286121542416152631017281394654057160793861998354968253414913907793896443728221843943633689644440430016187, 352832711258221307123337728578158070595620925439226858669719408452461302917333276481733610718366698152053661676065949776571833342813316870601523230864055487833793723785655092334455840/4668193591308434514502245980583895945094862994656209511152009146118379389778820667616932304356139040323254192800041852344662828259257968132451519091702032517635868478609170361003371103, 0, 0],
   [-743229634111171306735085299093189959143732119408737407170397458440462285899340323217495942017027525081116075623090797494801679378665932849970829522357420400225462811810/19891818627701289229063650715403377881682074876632071002551705120203665456383231244830415360170889280082436237125864503633943146754308116586123526888406956259980367671661, -63266067012177956775650161647702099747881749161049518922341156009413485517649155204345029255831492414754363576245981013815675903183934510614457740766286047913807363530/8525065126157695383884421735172876235006603518556601858236445051515856624164241962070178011501809691463901244482513358700261348608989192822624368666460124111420157573569, -14312037933136039635244564753021650755332124460897096751947998404991718811650324106662023931731068829696358303599555810711824841749681589746053251604135067534603188198868678332622795/793673890192361974871652707412998957389754803619309312926455813581346110992565058909196274701863178940500153762462614398019924762779803816920539802805789656003520209366301107556683576, -505973226343595968788632766225766872517680279551857903106409766720878857598752570854534933638616123001199112757144662257616918860448330082624545240825473233267528809040/1767542893005558065499969204397456024083858463407507205538637439369295160313178815684521788059680991450198451840867346386565234577699296391120831725561125772560403240021, -464669968350119694111461581254945788709874110047237644418004050765880980648898442417497386354596769153299860248460074947332559320235406701496683642485997323497552783344/757518382716667742357129659027481153178796484317503088087987474015412211562790921007652194882720424907227907931800291308527957676156841310480356453811911045383029960009, 26110664043504867894313239729672326109336614397666993613292981163441833825695988736721608297755127559206916602386197164172510249771886200278403313625516683501172646377322237660673371/70524101904889408077944094662981872860108552415399718043579723000893566276567300894843402688323560881620307747460053763557603839090420822412017411180732850591845009298630099319897336, 16718130977325032608965161721019383178842201355424805108766214936954084072264185077644535489674659191311327263816426818064612985171676192853717428955420571186617970648238809019510050/126015145744767181299520382697993943242120508318596246497651085122034853264725534525940456754515548359084311112942640487555602408111856654773679260582505507209689543944337469574460163, 5459745652244032324577527827525024882049886891924565438303251518547156268571503341175542621474379278769764275683548588877846244926867421226903683002225412183936384647360596346015680/51888589424315898182155451699173976629108444601774925028444564462014351344298749510681364545976990500799422222976381377228777462163705681377397342592796385321636871035903663942424773, 2896422845523620782977286905208839681562558291216698073349341331261545099317928319891345559139746424678388608137971239967484437005759643616369159176740925637093432601499672596649909522/2000654396275043363358105420250241119326369854852661219065146776907876881333780286121542416152631017281394654057160793861998354968253414913907793896443728221843943633689644440430016187, -3923124422356186178963891677728064195055969949988973712532335714401846780207373575277355580421906909133843951180623303814007038867048617715939856690922254698994841468935104168989897440/42013742321775910630520213825255063505853766951905885600368082315065414508009386008552390739205251362909287735200376671101965454333321713192063671825318292658722816307482533249030339927, 0, 0],
   [1382801694001324707389559955286633275833058632572725084599516046382432779332907755230772888352692468165512021844937953846837022277637873538052148942459770/49071197778736847663791972957085584080109132547303619795481265547074539739534252143777436900319614161174320327296021158902773098361826537888632936090443863, -570023351032629116713076519982527879588920124344308969221870551164806283524585142631676213368350848585438201877182143505159574436100257800654623545252990/21030513333744363284482274124465250320046771091701551340920542377317659888371822347333187242994120354788994425984009068101188470726497087666556972610190227, -53068527198273230449224431639826093129202097776713324523804365527195639888947841267453511284144104394589855152069592828907102000955067099982249170684218498586948811985/1957916928883115923459267018798349985914584530273393675514314347228747807807761693237817047833704845898327356553678314874400168245968732547235919276524867391364415872808, 10682659255818885015662026125682497884459896654284397692500954867195992716093203828649732370606558704058979359415048662881725154613703502477543520397568220900592240718640/15907886037050022589499722839577104216754726170667564849847736954323656442818609341160696092537128923051786066567806117479087111199293667520087485530050131953043629160189, 686343455130263687461738253524879077515581525487270368423900501566813480580916291887710944137246933769117114204747189203447711594690559529565731105197142429507341649968/2272555148150003227071388977082443459536389452952509264263962422046236634688372763022956584648161274721683723795400873925583873028470523931441069361435733136149089880027, 63897796905959012710393036243638150732200038043089446969464327719675422879001994601281197102698494224565842914789725317160052107618194682333602129617621407938545082685966712982020113/211572305714668224233832283988945618580325657246199154130739169002680698829701902684530208064970682644860923242380161290672811517271262467236052233542198551775535027895890297959692008, -6190594976655669170653975601500204519923230180202689656109008517247405639524665007861967326963697267710791353513511600043342797679631629320253220321993249284636312950/41319897199445370483048253046085116453952820453879826349060475781515670383653337071626509243582951111686110979945180496577113608898259919810476388255216568815964473183, -7836025449753752415136752970933551712453088470498948183967102878037100999077174987015326844493742004963635045091331025005748495488549931487491578775892465760165404480/52302527827620392702943431415632794465678842448157252960357595706014388873426119474106757887846829184944728713176797099153165592091261467123936343303444066409750237297, 345101801075893849420808161812127100349348548665177527978894981056513776979444802753812188396177882436334092670138171822984841107261450841083459669959991098739383566/13773299066481790161016084348695038817984273484626608783020158593838556794551112357208836414527650370562036993315060165525704536299419973270158796085072189605321491061, 5413611953477393401890240812324312547953144859130863485494260118437751385824637539063327032554861403078110069887957749147397686780773999920511416838067253282113046636960/216061742455899842255859315177979073937719298153337611979237227861545440436123299547535016834695251363006674314133348816601727060929001120688981034186527438338678230273907, 0, 0]]

/-- Certificate: the differences of the nodal values from the gradients at the nodes of the rule, element (3, 1). -/
def rig31 : List (List ℚ) :=
  [[0, 0, 0, 0, 0, 0, 0, 0, 0, 0, 0, 0],
   [1, 0, 0, 0, 0, 0, 0, 0, 0, 0, 0, 0],
   [0, 1, 0, 0, 0, 0, 0, 0, 0, 0, 0, 0],
   [0, 0, 1, 0, 0, 0, 0, 0, 0, 0, 0, 0]]

/-- Certificate: the nodal values from the values at the nodes of the rule, element (3, 1). -/
def mas31 : List (List ℚ) :=
  [[-46065533708337/149071198499986, 287267799624997/149071198499986, -46065533708337/149071198499986, -46065533708337/149071198499986],
   [861803398874989/447213595499958, -19742371589287/63887656499994, -46065533708337/149071198499986, -46065533708337/149071198499986],
   [-46065533708337/149071198499986, -19742371589287/63887656499994, -46065533708337/149071198499986, 861803398874989/447213595499958],
   [-46065533708337/149071198499986, -19742371589287/63887656499994, 861803398874989/447213595499958, -46065533708337/149071198499986]]

/-- Certificate: the differences of the nodal values from the gradients at the nodes of the rule, element (3, 2). -/
def rig32 : List (List ℚ) :=
  [[0, 0, 0, 0, 0, 0, 0, 0, 0, 0, 0, 0, 0, 0, 0],
   [166666666666667/41666666666667, 0, 0, 125000000000000/13888888888888986111111111111, 0, 0, -20833333333333375000000000000/13888888888888986111111111111, 0, 0, -20833333333333375000000000000/13888888888888986111111111111, 0, 0, 0, 0, 0],
   [20833333333333375000000000000/3472222222222236111111111111, -166666666666667/83333333333333, 0, -20833333333333375000000000000/13888888888888986111111111111, 41666666666666750000000000000/27777777777777638888888888889, 0, -3472222222222236111111111111125000000000000/1157407407407410879629629629587962962962963, 500000000000000/333333333333333, 0, -20833333333333375000000000000/13888888888888986111111111111, 0, 0, 0, 0, 0],
   [20833333333333375000000000000/3472222222222236111111111111, -500000000000000/83333333333333, 333333333333333/83333333333333, -20833333333333375000000000000/13888888888888986111111111111, 125000000000000000000000000000/27777777777777638888888888889, -250000000000000/83333333333333, -5208333333333364583333333333375000000000000/1157407407407410879629629629587962962962963, 500000000000000/333333333333333, 0, 20833333333333375000000000000/1157407407407410879629629629587962962962963, 0, 0, 0, 0, 0],
   [34722222222222236111111111111/6944444444444472222222222222, -166666666666667/166666666666666, 0, -15625000000000000000000000000/13888888888888986111111111111, 31250000000000000000000000000/27777777777777638888888888889, 0, -2170138888888892361111111111125000000000000/1157407407407410879629629629587962962962963, 125000000000000/333333333333333, 0, -20833333333333375000000000000/13888888888888986111111111111, 0, 0, 0, 0, 0],
   [15625000000000000000000000000/3472222222222236111111111111, -166666666666667/166666666666666, 0, -15625000000000000000000000000/13888888888888986111111111111, 31250000000000000000000000000/27777777777777638888888888889, 0, -2604166666666671875000000000000000000000000/1157407407407410879629629629587962962962963, 125000000000000/333333333333333, 0, -15625000000000000000000000000/13888888888888986111111111111, 0, 0, 0, 0, 0],
   [291666666666667/83333333333334, 0, 0, -10416666666666625000000000000/13888888888888986111111111111, 0, 0, -15625000000000000000000000000/13888888888888986111111111111, 0, 0, -15625000000000000000000000000/13888888888888986111111111111, 0, 0, 0, 0, 0],
   [34722222222222236111111111111/6944444444444472222222222222, -125000000000000/83333333333333, 1/2, -15625000000000000000000000000/13888888888888986111111111111, 31250000000000000000000000000/27777777777777638888888888889, 0, -2604166666666671875000000000000000000000000/1157407407407410879629629629587962962962963, 125000000000000/333333333333333, 0, -15625000000000000000000000000/13888888888888986111111111111, 0, 0, 0, 0, 0],
   [125000000000000/41666666666667, 1/2, 1/2, -10416666666666625000000000000/13888888888888986111111111111, 0, 0, -15625000000000000000000000000/13888888888888986111111111111, 0, 0, -15625000000000000000000000000/13888888888888986111111111111, 0, 0, 0, 0, 0],
   [15625000000000000000000000000/3472222222222236111111111111, -125000000000000/83333333333333, 1/2, -15625000000000000000000000000/13888888888888986111111111111, 31250000000000000000000000000/27777777777777638888888888889, 0, -2170138888888892361111111111125000000000000/1157407407407410879629629629587962962962963, 125000000000000/333333333333333, 0, -20833333333333375000000000000/13888888888888986111111111111, 0, 0, 0, 0, 0]]

/-- Coordinates of the first node of the rule with respect to the others. -/
def bar32 : List (List ℚ) :=
  [[83333333333333/333333333333333, 83333333333333/333333333333333, 83333333333333/333333333333333, 27777777777778/111111111111111]]

/-- Derivatives at the nodes. -/
def litGra : Nat → Nat → List (List ℚ)
  | 1, 1 => gra11
  | 1, 2 => gra12
  | 2, 1 => gra21
  | 2, 2 => gra22
  | 2, 3 => gra23
  | 3, 1 => gra31
  | 3, 2 => gra32
  | _, _ => []

/-- Values at the nodes. -/
def litVal : Nat → Nat → List (List ℚ)
  | 1, 1 => val11
  | 1, 2 => val12
  | 2, 1 => val21
  | 2, 2 => val22
  | 2, 3 => val23
  | 3, 1 => val31
  | 3, 2 => val32
  | _, _ => []

/-- Left inverses for the gradients. -/
def litRig : Nat → Nat → List (List ℚ)
  | 1, 1 => rig11
  | 1, 2 => rig12
  | 2, 1 => rig21
  | 2, 2 => rig22
  | 2, 3 => rig23
  | 3, 1 => rig31
  | 3, 2 => rig32
  | _, _ => []

/-- Left inverses for the values. -/
def litMas : Nat → Nat → List (List ℚ)
  | 1, 1 => mas11
  | 1, 2 => mas12
  | 2, 1 => mas21
  | 2, 2 => mas22
  | 2, 3 => mas23
  | 3, 1 => mas31
  | _, _ => []

end Fdapde.FEM
