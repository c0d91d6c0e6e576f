import Verif.Proofs.UltraTables

/-!
# Certificates for all FIR tables: the windows and the coefficients

Every statement is one evaluation of an integer program by the kernel.
-/

namespace Panda.FirDesign

set_option maxRecDepth 100000

/-- Square of the position of the last side lobe for `n = 4` -/
def lobe4 : ℤ := 12560330729535428924333069642125263523391433105141049733582729763619361237995658854208499158382246119894590475449796593016867394289271933901881000127381387463544915940477816552258759627068460331767617

theorem lobe4_ok : lobeCheck 4 (-1) 2 10 lobe4 = true := by decide +kernel

/-- Square of the position of the last side lobe for `n = 6` -/
def lobe6 : ℤ := 5997664904592885073887302273085363999650064566964727145929595438249918710315803609499550213109341704072794418126661310895069491867762493386025214095337101621971951676531849719491454824653772916754359

theorem lobe6_ok : lobeCheck 6 (-1) 1 10 lobe6 = true := by decide +kernel

/-- Square of the position of the last side lobe for `n = 8` -/
def lobe8 : ℤ := 3493046836241403206522683399512187974058542479867009349432278662967886859273972965172905247248176187637722751083290148207493169668007087112835805805797015200652035165140718767885763104398427488693487

theorem lobe8_ok : lobeCheck 8 (-1) 4 100 lobe8 = true := by decide +kernel

/-- Square of the position of the last side lobe for `n = 10` -/
def lobe10 : ℤ := 2281744301660913609712972658401791844699046491892663960491088124036134600115421276450999362537546862751331846146738727994611773865676309672166344516711446065424158876868276092965399808178122290575993

theorem lobe10_ok : lobeCheck 10 (-1) 3 100 lobe10 = true := by decide +kernel

/-- Square of the position of the last side lobe for `n = 12` -/
def lobe12 : ℤ := 1606003203227224441833515657383792653954069994396375842738275621319845844829239725178229829339445853488697026556904036289840776839141405688859571599484707709124542691681951447452247034725701112573162

theorem lobe12_ok : lobeCheck 12 (-1) 2 100 lobe12 = true := by decide +kernel

/-- Square of the position of the last side lobe for `n = 14` -/
def lobe14 : ℤ := 1191199589922301877162288999310674615986944285445678744945253496714208207549510319365304465790006757870386741547581338229583310593278231735238785379945570139404905771387779349965064972486354018024446

theorem lobe14_ok : lobeCheck 14 (-1) 2 100 lobe14 = true := by decide +kernel

/-- Square of the position of the last side lobe for `n = 16` -/
def lobe16 : ℤ := 918493618196317851780017164800010364422602175611255015844300705075911641655674027414058124048553620284946722182328023581540229150320303967506633327036624063512450094643097855356373108562663031251459

theorem lobe16_ok : lobeCheck 16 (-1) 1 100 lobe16 = true := by decide +kernel

/-- Square of the position of the last side lobe for `n = 24` -/
def lobe24 : ℤ := 414943620883399369776197530114563771516737950242111457042678951750118950680861186061404815023607189735055579870065459586209953484462432886312782744511847641811945764922209931322040149653627018741272

theorem lobe24_ok : lobeCheck 24 (-1) 5 1000 lobe24 = true := by decide +kernel

/-- Square of the position of the last side lobe for `n = 32` -/
def lobe32 : ℤ := 235296435873539198434617041675148904047709458070378385685665844363230357817078141084067090149410527861146163860829930519759602889102936515202439379511642631403831048148714461617592455349633593875455

theorem lobe32_ok : lobeCheck 32 (-1) 3 1000 lobe32 = true := by decide +kernel

/-- Square of the position of the last side lobe for `n = 42` -/
def lobe42 : ℤ := 137372803832069387676570606278257373081600025815923457675998609199070109542245482048851327016403943935847269136575284023008361252534544238905635882378874362275400718030547047522322973881797094676167

theorem lobe42_ok : lobeCheck 42 (-1) 2 1000 lobe42 = true := by decide +kernel

/-- Square of the position of the last side lobe for `n = 52` -/
def lobe52 : ℤ := 89931826641626880016222924158593912270848530040792244930313501600234642093009576790825419717783409759036057593024333848456307254656005221228319405107959737501712017406950451153610723190186895494395

theorem lobe52_ok : lobeCheck 52 (-1) 1 1000 lobe52 = true := by decide +kernel

/-- Parameter of the window for the stage 2 with 24 bits -/
def par2x24 : ℤ := 101044407922716807389867143753071256183202246301906187976707184852387910037377653335449403221808844747922829798

theorem att2x24_ok : attCheck 52 552 lobe52 par2x24 = true := by decide +kernel

theorem tab2x24_ok : tableCheck 52 par2x24 fir2x24 = true := by decide +kernel

/-- Parameter of the window for the stage 4 with 24 bits -/
def par4x24 : ℤ := 111913122665942396651100101127498402910952024880380706267488457097406906868833664499756279078699374133440408396

theorem att4x24_ok : attCheck 16 544 lobe16 par4x24 = true := by decide +kernel

theorem tab4x24_ok : tableCheck 16 par4x24 fir4x24 = true := by decide +kernel

/-- Parameter of the window for the stage 8 with 24 bits -/
def par8x24 : ℤ := 121853813737337529097615506627067181953238286338879611379040763941963253081506787896707298843207119990627159690

theorem att8x24_ok : attCheck 12 544 lobe12 par8x24 = true := by decide +kernel

theorem tab8x24_ok : tableCheck 12 par8x24 fir8x24 = true := by decide +kernel

/-- Parameter of the window for the stage 2 with 20 bits -/
def par2x20 : ℤ := 101061750241453638510239672093612544338266930524179005976704590502992926965936722317423050754748400218937172832

theorem att2x20_ok : attCheck 42 455 lobe42 par2x20 = true := by decide +kernel

theorem tab2x20_ok : tableCheck 42 par2x20 fir2x20 = true := by decide +kernel

/-- Parameter of the window for the stage 4 with 20 bits -/
def par4x20 : ℤ := 110775907482911894824514573495683298158148848532004654710734535138797440360382182749010725502455186723525122326

theorem att4x20_ok : attCheck 14 455 lobe14 par4x20 = true := by decide +kernel

theorem tab4x20_ok : tableCheck 14 par4x20 fir4x20 = true := by decide +kernel

/-- Parameter of the window for the stage 8 with 20 bits -/
def par8x20 : ℤ := 121990585662844745950125712014830667524017643350696291435847949202846343291824774401565024843066840468613776685

theorem att8x20_ok : attCheck 10 455 lobe10 par8x20 = true := by decide +kernel

theorem tab8x20_ok : tableCheck 10 par8x20 fir8x20 = true := by decide +kernel

/-- Parameter of the window for the stage 2 with 16 bits -/
def par2x16 : ℤ := 101062389488615380490752663226729633816495512092732853672259147886794858990247023079960002687592799176970555256

theorem att2x16_ok : attCheck 32 354 lobe32 par2x16 = true := by decide +kernel

theorem tab2x16_ok : tableCheck 32 par2x16 fir2x16 = true := by decide +kernel

/-- Parameter of the window for the stage 4 with 16 bits -/
def par4x16 : ℤ := 112186279504137877062334759684543762316078418809371093502338997120875257043104377848485105954167654916810127010

theorem att4x16_ok : attCheck 10 346 lobe10 par4x16 = true := by decide +kernel

theorem tab4x16_ok : tableCheck 10 par4x16 fir4x16 = true := by decide +kernel

/-- Parameter of the window for the stage 8 with 16 bits -/
def par8x16 : ℤ := 120662060614885489418674448713924350123391648650920679094238002350989385687738045020731350175490500763705565362

theorem att8x16_ok : attCheck 8 354 lobe8 par8x16 = true := by decide +kernel

theorem tab8x16_ok : tableCheck 8 par8x16 fir8x16 = true := by decide +kernel

/-- Parameter of the window for the stage 2 with 12 bits -/
def par2x12 : ℤ := 101032098041774870241102631417322078917789709378054938919473815033417805550690900209933189332492593620965147821

theorem att2x12_ok : attCheck 24 270 lobe24 par2x12 = true := by decide +kernel

theorem tab2x12_ok : tableCheck 24 par2x12 fir2x12 = true := by decide +kernel

/-- Parameter of the window for the stage 4 with 12 bits -/
def par4x12 : ℤ := 111421072699332673853225754376418948087543857774052637717511746683565407594255616106794667183780989415717746591

theorem att4x12_ok : attCheck 8 270 lobe8 par4x12 = true := by decide +kernel

theorem tab4x12_ok : tableCheck 8 par4x12 fir4x12 = true := by decide +kernel

/-- Parameter of the window for the stage 8 with 12 bits -/
def par8x12 : ℤ := 121364402296407850962093284212575784688217815948578355317709375408618727210617513044247287378593243031003252676

theorem att8x12_ok : attCheck 6 270 lobe6 par8x12 = true := by decide +kernel

theorem tab8x12_ok : tableCheck 6 par8x12 fir8x12 = true := by decide +kernel

/-- Parameter of the window for the stage 2 with 8 bits -/
def par2x8 : ℤ := 101056144156659804384541039979773886634044777714325956044102780004081859039869549560941537991110896209162678255

theorem att2x8_ok : attCheck 16 192 lobe16 par2x8 = true := by decide +kernel

theorem tab2x8_ok : tableCheck 16 par2x8 fir2x8 = true := by decide +kernel

/-- Parameter of the window for the stage 4 with 8 bits -/
def par4x8 : ℤ := 108981003857163800513954198237243733369663337875933417662794568159619992543622425760230456958698710839975966889

theorem att4x8_ok : attCheck 6 184 lobe6 par4x8 = true := by decide +kernel

theorem tab4x8_ok : tableCheck 6 par4x8 fir4x8 = true := by decide +kernel

/-- Parameter of the window for the stage 8 with 8 bits -/
def par8x8 : ℤ := 118261314389117236595985177373376472133964932452424790418844618012245566044537790578655986619202873818017058731

theorem att8x8_ok : attCheck 4 168 lobe4 par8x8 = true := by decide +kernel

theorem tab8x8_ok : tableCheck 4 par8x8 fir8x8 = true := by decide +kernel

end Panda.FirDesign
