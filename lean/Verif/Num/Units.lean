import Verif.Num.Quantity

/-!
# The catalogue of units (`crates/logicaffeine_base/src/quantity.rs` 154–706), transcribed

Generated from the source by a script, one definition for each function.  Panics (`expect`, `unwrap`)
become a default value; `C111_catalogue` shows that none happens.
-/
namespace Verif.Num.Units

/-- `Dimension::length` (`dimension.rs` 259). -/
def dLength : Dimension := .base 0
/-- `Dimension::mass` (`dimension.rs` 260). -/
def dMass : Dimension := .base 1
/-- `Dimension::time` (`dimension.rs` 261). -/
def dTime : Dimension := .base 2
/-- `Dimension::current` (`dimension.rs` 262). -/
def dCurrent : Dimension := .base 3
/-- `Dimension::temperature` (`dimension.rs` 263). -/
def dTemperature : Dimension := .base 4
/-- `Dimension::amount` (`dimension.rs` 264). -/
def dAmount : Dimension := .base 5
/-- `Dimension::luminous` (`dimension.rs` 265). -/
def dLuminous : Dimension := .base 6
/-- `Dimension::angle` (`dimension.rs` 266). -/
def dAngle : Dimension := .base 7
/-- `Dimension::solid_angle` (`dimension.rs` 267). -/
def dSolidAngle : Dimension := .base 8
/-- `Dimension::information` (`dimension.rs` 268). -/
def dInformation : Dimension := .base 9
/-- `Dimension::area` (`dimension.rs` 271). -/
def dArea : Dimension := (Dimension.powi dLength 2).getD []
/-- `Dimension::volume` (`dimension.rs` 272). -/
def dVolume : Dimension := (Dimension.powi dLength 3).getD []
/-- `Dimension::speed` (`dimension.rs` 273). -/
def dSpeed : Dimension := (Dimension.div dLength dTime).getD []
/-- `Dimension::acceleration` (`dimension.rs` 274). -/
def dAcceleration : Dimension := (Dimension.div dSpeed dTime).getD []
/-- `Dimension::frequency` (`dimension.rs` 275). -/
def dFrequency : Dimension := Dimension.recip dTime
/-- `Dimension::force` (`dimension.rs` 276). -/
def dForce : Dimension := (Dimension.mul dMass dAcceleration).getD []
/-- `Dimension::energy` (`dimension.rs` 277). -/
def dEnergy : Dimension := (Dimension.mul dForce dLength).getD []
/-- `Dimension::power` (`dimension.rs` 278). -/
def dPower : Dimension := (Dimension.div dEnergy dTime).getD []
/-- `Dimension::pressure` (`dimension.rs` 279). -/
def dPressure : Dimension := (Dimension.div dForce dArea).getD []
/-- `Dimension::charge` (`dimension.rs` 280). -/
def dCharge : Dimension := (Dimension.mul dCurrent dTime).getD []
/-- `Dimension::voltage` (`dimension.rs` 281). -/
def dVoltage : Dimension := (Dimension.div dPower dCurrent).getD []
/-- `Dimension::resistance` (`dimension.rs` 282). -/
def dResistance : Dimension := (Dimension.div dVoltage dCurrent).getD []
/-- `Dimension::conductance` (`dimension.rs` 283). -/
def dConductance : Dimension := Dimension.recip dResistance
/-- `Dimension::capacitance` (`dimension.rs` 284). -/
def dCapacitance : Dimension := (Dimension.div dCharge dVoltage).getD []
/-- `Dimension::magnetic_flux` (`dimension.rs` 285). -/
def dMagneticFlux : Dimension := (Dimension.mul dVoltage dTime).getD []
/-- `Dimension::inductance` (`dimension.rs` 286). -/
def dInductance : Dimension := (Dimension.div dMagneticFlux dCurrent).getD []
/-- `Dimension::magnetic_flux_density` (`dimension.rs` 287). -/
def dMagneticFluxDensity : Dimension := (Dimension.div dMagneticFlux dArea).getD []
/-- `Dimension::surface_tension` (`dimension.rs` 288). -/
def dSurfaceTension : Dimension := (Dimension.div dForce dLength).getD []
/-- `Dimension::density` (`dimension.rs` 289). -/
def dDensity : Dimension := (Dimension.div dMass dVolume).getD []
/-- `Dimension::absorbed_dose` (`dimension.rs` 291). -/
def dAbsorbedDose : Dimension := (Dimension.div dEnergy dMass).getD []
/-- `Dimension::radioactivity` (`dimension.rs` 292). -/
def dRadioactivity : Dimension := dFrequency
/-- `Dimension::exposure` (`dimension.rs` 293). -/
def dExposure : Dimension := (Dimension.div dCharge dMass).getD []
/-- `Dimension::catalytic_activity` (`dimension.rs` 294). -/
def dCatalyticActivity : Dimension := (Dimension.div dAmount dTime).getD []
/-- `Dimension::luminous_flux` (`dimension.rs` 296). -/
def dLuminousFlux : Dimension := (Dimension.mul dLuminous dSolidAngle).getD []
/-- `Dimension::illuminance` (`dimension.rs` 297). -/
def dIlluminance : Dimension := (Dimension.div dLuminousFlux dArea).getD []
/-- `Dimension::luminance` (`dimension.rs` 298). -/
def dLuminance : Dimension := (Dimension.div dLuminous dArea).getD []
/-- `Dimension::data_rate` (`dimension.rs` 300). -/
def dDataRate : Dimension := (Dimension.div dInformation dTime).getD []
/-- `Dimension::volumetric_flow` (`dimension.rs` 301). -/
def dVolumetricFlow : Dimension := (Dimension.div dVolume dTime).getD []
/-- `Dimension::molar_concentration` (`dimension.rs` 302). -/
def dMolarConcentration : Dimension := (Dimension.div dAmount dVolume).getD []
/-- `Dimension::molality` (`dimension.rs` 303). -/
def dMolality : Dimension := (Dimension.div dAmount dMass).getD []
/-- `Dimension::dynamic_viscosity` (`dimension.rs` 304). -/
def dDynamicViscosity : Dimension := (Dimension.mul dPressure dTime).getD []
/-- `Dimension::kinematic_viscosity` (`dimension.rs` 305). -/
def dKinematicViscosity : Dimension := (Dimension.div dArea dTime).getD []
/-- `Dimension::fuel_economy` (`dimension.rs` 306). -/
def dFuelEconomy : Dimension := (Dimension.div dLength dVolume).getD []

/-- `r` (`quantity.rs` 161–163). -/
def r (n d : Int) : Rational := .expect (Rational.new n d)
/-- `i` (`quantity.rs` 164–166). -/
def i (n : Int) : Rational := .ofInt n
/-- `cube` (`quantity.rs` 168–170). -/
def cube (x : Rational) : Rational := .expect (x.pow 3)
/-- `square` (`quantity.rs` 172–174). -/
def square (x : Rational) : Rational := .expect (x.pow 2)
/-- `e` (`quantity.rs` 377–380): a whole number times a power of ten. -/
def e (m : Int) (p : Nat) : Rational := .ofInt (m * 10 ^ p)

/-- `inch_m` (`quantity.rs` 177). -/
def inchM : Rational := (r (127) (5000))
/-- `foot_m` (`quantity.rs` 178). -/
def footM : Rational := (r (381) (1250))
/-- `lb_kg` (`quantity.rs` 179). -/
def lbKg : Rational := (r (45359237) (100000000))
/-- `g0` (`quantity.rs` 180). -/
def g0 : Rational := (r (980665) (100000))
/-- `us_gallon_m3` (`quantity.rs` 182). -/
def usGallonM3 : Rational := (Rational.mul (cube inchM) (i (231)))
/-- `imp_gallon_m3` (`quantity.rs` 184). -/
def impGallonM3 : Rational := (r (454609) (100000000))
/-- `metre` (`quantity.rs` 187). -/
def metreU : MUnit := .linear ['m'] dLength .one
/-- `kilometre` (`quantity.rs` 188). -/
def kilometreU : MUnit := .linear ['k', 'm'] dLength (i (1000))
/-- `hectometre` (`quantity.rs` 189). -/
def hectometreU : MUnit := .linear ['h', 'm'] dLength (i (100))
/-- `dekametre` (`quantity.rs` 190). -/
def dekametreU : MUnit := .linear ['d', 'a', 'm'] dLength (i (10))
/-- `decimetre` (`quantity.rs` 191). -/
def decimetreU : MUnit := .linear ['d', 'm'] dLength (r (1) (10))
/-- `centimetre` (`quantity.rs` 192). -/
def centimetreU : MUnit := .linear ['c', 'm'] dLength (r (1) (100))
/-- `millimetre` (`quantity.rs` 193). -/
def millimetreU : MUnit := .linear ['m', 'm'] dLength (r (1) (1000))
/-- `micrometre` (`quantity.rs` 194). -/
def micrometreU : MUnit := .linear ['µ', 'm'] dLength (r (1) (1000000))
/-- `nanometre` (`quantity.rs` 195). -/
def nanometreU : MUnit := .linear ['n', 'm'] dLength (r (1) (1000000000))
/-- `angstrom` (`quantity.rs` 196). -/
def angstromU : MUnit := .linear ['Å'] dLength (r (1) (10000000000))
/-- `inch` (`quantity.rs` 197). -/
def inchU : MUnit := .linear ['i', 'n'] dLength inchM
/-- `foot` (`quantity.rs` 198). -/
def footU : MUnit := .linear ['f', 't'] dLength footM
/-- `yard` (`quantity.rs` 199). -/
def yardU : MUnit := .linear ['y', 'd'] dLength (r (1143) (1250))
/-- `mile` (`quantity.rs` 200). -/
def mileU : MUnit := .linear ['m', 'i'] dLength (r (201168) (125))
/-- `nautical_mile` (`quantity.rs` 201). -/
def nauticalMileU : MUnit := .linear ['n', 'm', 'i'] dLength (i (1852))
/-- `fathom` (`quantity.rs` 202). -/
def fathomU : MUnit := .linear ['f', 't', 'm'] dLength (r (1143) (625))
/-- `furlong` (`quantity.rs` 203). -/
def furlongU : MUnit := .linear ['f', 'u', 'r'] dLength (r (25146) (125))
/-- `chain` (`quantity.rs` 204). -/
def chainU : MUnit := .linear ['c', 'h'] dLength (r (12573) (625))
/-- `rod` (`quantity.rs` 205). -/
def rodU : MUnit := .linear ['r', 'o', 'd'] dLength (r (12573) (2500))
/-- `hand` (`quantity.rs` 206). -/
def handU : MUnit := .linear ['h', 'a', 'n', 'd'] dLength (r (127) (1250))
/-- `point` (`quantity.rs` 207). -/
def pointU : MUnit := .linear ['p', 't'] dLength (r (127) (360000))
/-- `pica` (`quantity.rs` 208). -/
def picaU : MUnit := .linear ['p', 'i', 'c', 'a'] dLength (r (127) (30000))
/-- `thou` (`quantity.rs` 209). -/
def thouU : MUnit := .linear ['t', 'h', 'o', 'u'] dLength (r (127) (5000000))
/-- `astronomical_unit` (`quantity.rs` 210). -/
def astronomicalUnitU : MUnit := .linear ['A', 'U'] dLength (i (149597870700))
/-- `light_year` (`quantity.rs` 211). -/
def lightYearU : MUnit := .linear ['l', 'y'] dLength (i (9460730472580800))
/-- `kilogram` (`quantity.rs` 214). -/
def kilogramU : MUnit := .linear ['k', 'g'] dMass .one
/-- `gram` (`quantity.rs` 215). -/
def gramU : MUnit := .linear ['g'] dMass (r (1) (1000))
/-- `milligram` (`quantity.rs` 216). -/
def milligramU : MUnit := .linear ['m', 'g'] dMass (r (1) (1000000))
/-- `microgram` (`quantity.rs` 217). -/
def microgramU : MUnit := .linear ['µ', 'g'] dMass (r (1) (1000000000))
/-- `tonne` (`quantity.rs` 218). -/
def tonneU : MUnit := .linear ['t'] dMass (i (1000))
/-- `pound` (`quantity.rs` 219). -/
def poundU : MUnit := .linear ['l', 'b'] dMass lbKg
/-- `ounce` (`quantity.rs` 220). -/
def ounceU : MUnit := .linear ['o', 'z'] dMass (Rational.expect (Rational.div lbKg (i (16))))
/-- `stone` (`quantity.rs` 221). -/
def stoneU : MUnit := .linear ['s', 't'] dMass (Rational.mul lbKg (i (14)))
/-- `short_ton` (`quantity.rs` 222). -/
def shortTonU : MUnit := .linear ['t', 'o', 'n'] dMass (Rational.mul lbKg (i (2000)))
/-- `long_ton` (`quantity.rs` 223). -/
def longTonU : MUnit := .linear ['L', 'T'] dMass (Rational.mul lbKg (i (2240)))
/-- `hundredweight` (`quantity.rs` 224). -/
def hundredweightU : MUnit := .linear ['c', 'w', 't'] dMass (Rational.mul lbKg (i (100)))
/-- `grain` (`quantity.rs` 225). -/
def grainU : MUnit := .linear ['g', 'r'] dMass (Rational.expect (Rational.div lbKg (i (7000))))
/-- `dram` (`quantity.rs` 226). -/
def dramU : MUnit := .linear ['d', 'r'] dMass (Rational.expect (Rational.div lbKg (i (256))))
/-- `carat` (`quantity.rs` 227). -/
def caratU : MUnit := .linear ['c', 't'] dMass (r (1) (5000))
/-- `troy_ounce` (`quantity.rs` 228). -/
def troyOunceU : MUnit := .linear ['o', 'z', 't'] dMass (r (311034768) (10000000000))
/-- `troy_pound` (`quantity.rs` 229). -/
def troyPoundU : MUnit := .linear ['l', 'b', 't'] dMass (Rational.mul (r (311034768) (10000000000)) (i (12)))
/-- `second` (`quantity.rs` 232). -/
def secondU : MUnit := .linear ['s'] dTime .one
/-- `millisecond` (`quantity.rs` 233). -/
def millisecondU : MUnit := .linear ['m', 's'] dTime (r (1) (1000))
/-- `microsecond` (`quantity.rs` 234). -/
def microsecondU : MUnit := .linear ['µ', 's'] dTime (r (1) (1000000))
/-- `nanosecond` (`quantity.rs` 235). -/
def nanosecondU : MUnit := .linear ['n', 's'] dTime (r (1) (1000000000))
/-- `minute` (`quantity.rs` 236). -/
def minuteU : MUnit := .linear ['m', 'i', 'n'] dTime (i (60))
/-- `hour` (`quantity.rs` 237). -/
def hourU : MUnit := .linear ['h'] dTime (i (3600))
/-- `day` (`quantity.rs` 238). -/
def dayU : MUnit := .linear ['d', 'a', 'y'] dTime (i (86400))
/-- `week` (`quantity.rs` 239). -/
def weekU : MUnit := .linear ['w', 'k'] dTime (i (604800))
/-- `fortnight` (`quantity.rs` 240). -/
def fortnightU : MUnit := .linear ['f', 'o', 'r', 't', 'n', 'i', 'g', 'h', 't'] dTime (i (1209600))
/-- `julian_year` (`quantity.rs` 241). -/
def julianYearU : MUnit := .linear ['y', 'r'] dTime (i (31557600))
/-- `decade` (`quantity.rs` 242). -/
def decadeU : MUnit := .linear ['d', 'e', 'c', 'a', 'd', 'e'] dTime (i (315576000))
/-- `century` (`quantity.rs` 243). -/
def centuryU : MUnit := .linear ['c', 'e', 'n', 't', 'u', 'r', 'y'] dTime (i (3155760000))
/-- `kelvin` (`quantity.rs` 246). -/
def kelvinU : MUnit := .affine ['K'] dTemperature .one .zero
/-- `celsius` (`quantity.rs` 247). -/
def celsiusU : MUnit := .affine ['°', 'C'] dTemperature .one (r (5463) (20))
/-- `fahrenheit` (`quantity.rs` 248). -/
def fahrenheitU : MUnit := .affine ['°', 'F'] dTemperature (r (5) (9)) (r (45967) (180))
/-- `rankine` (`quantity.rs` 249). -/
def rankineU : MUnit := .affine ['°', 'R'] dTemperature (r (5) (9)) .zero
/-- `reaumur` (`quantity.rs` 250). -/
def reaumurU : MUnit := .affine ['°', 'R', 'é'] dTemperature (r (5) (4)) (r (5463) (20))
/-- `cubic_metre` (`quantity.rs` 253). -/
def cubicMetreU : MUnit := .linear ['m', '³'] dVolume .one
/-- `litre` (`quantity.rs` 254). -/
def litreU : MUnit := .linear ['L'] dVolume (r (1) (1000))
/-- `millilitre` (`quantity.rs` 255). -/
def millilitreU : MUnit := .linear ['m', 'L'] dVolume (r (1) (1000000))
/-- `centilitre` (`quantity.rs` 256). -/
def centilitreU : MUnit := .linear ['c', 'L'] dVolume (r (1) (100000))
/-- `decilitre` (`quantity.rs` 257). -/
def decilitreU : MUnit := .linear ['d', 'L'] dVolume (r (1) (10000))
/-- `cubic_centimetre` (`quantity.rs` 258). -/
def cubicCentimetreU : MUnit := .linear ['c', 'c'] dVolume (r (1) (1000000))
/-- `cubic_inch` (`quantity.rs` 259). -/
def cubicInchU : MUnit := .linear ['i', 'n', '³'] dVolume (cube inchM)
/-- `cubic_foot` (`quantity.rs` 260). -/
def cubicFootU : MUnit := .linear ['f', 't', '³'] dVolume (cube footM)
/-- `us_gallon` (`quantity.rs` 262). -/
def usGallonU : MUnit := .linear ['g', 'a', 'l'] dVolume usGallonM3
/-- `us_quart` (`quantity.rs` 263). -/
def usQuartU : MUnit := .linear ['q', 't'] dVolume (Rational.expect (Rational.div usGallonM3 (i (4))))
/-- `us_pint` (`quantity.rs` 264). -/
def usPintU : MUnit := .linear ['p', 't'] dVolume (Rational.expect (Rational.div usGallonM3 (i (8))))
/-- `us_cup` (`quantity.rs` 265). -/
def usCupU : MUnit := .linear ['c', 'u', 'p'] dVolume (Rational.expect (Rational.div usGallonM3 (i (16))))
/-- `us_gill` (`quantity.rs` 266). -/
def usGillU : MUnit := .linear ['g', 'i', 'l', 'l'] dVolume (Rational.expect (Rational.div usGallonM3 (i (32))))
/-- `us_fluid_ounce` (`quantity.rs` 267). -/
def usFluidOunceU : MUnit := .linear ['f', 'l', ' ', 'o', 'z'] dVolume (Rational.expect (Rational.div usGallonM3 (i (128))))
/-- `tablespoon` (`quantity.rs` 268). -/
def tablespoonU : MUnit := .linear ['t', 'b', 's', 'p'] dVolume (Rational.expect (Rational.div usGallonM3 (i (256))))
/-- `teaspoon` (`quantity.rs` 269). -/
def teaspoonU : MUnit := .linear ['t', 's', 'p'] dVolume (Rational.expect (Rational.div usGallonM3 (i (768))))
/-- `oil_barrel` (`quantity.rs` 270). -/
def oilBarrelU : MUnit := .linear ['b', 'b', 'l'] dVolume (Rational.mul usGallonM3 (i (42)))
/-- `imperial_gallon` (`quantity.rs` 272). -/
def imperialGallonU : MUnit := .linear ['i', 'm', 'p', ' ', 'g', 'a', 'l'] dVolume impGallonM3
/-- `imperial_pint` (`quantity.rs` 273). -/
def imperialPintU : MUnit := .linear ['i', 'm', 'p', ' ', 'p', 't'] dVolume (Rational.expect (Rational.div impGallonM3 (i (8))))
/-- `imperial_fluid_ounce` (`quantity.rs` 274). -/
def imperialFluidOunceU : MUnit := .linear ['i', 'm', 'p', ' ', 'f', 'l', ' ', 'o', 'z'] dVolume (Rational.expect (Rational.div impGallonM3 (i (160))))
/-- `square_metre` (`quantity.rs` 277). -/
def squareMetreU : MUnit := .linear ['m', '²'] dArea .one
/-- `square_kilometre` (`quantity.rs` 278). -/
def squareKilometreU : MUnit := .linear ['k', 'm', '²'] dArea (i (1000000))
/-- `square_centimetre` (`quantity.rs` 279). -/
def squareCentimetreU : MUnit := .linear ['c', 'm', '²'] dArea (r (1) (10000))
/-- `square_inch` (`quantity.rs` 280). -/
def squareInchU : MUnit := .linear ['i', 'n', '²'] dArea (square inchM)
/-- `square_foot` (`quantity.rs` 281). -/
def squareFootU : MUnit := .linear ['f', 't', '²'] dArea (square footM)
/-- `square_yard` (`quantity.rs` 282). -/
def squareYardU : MUnit := .linear ['y', 'd', '²'] dArea (square (r (1143) (1250)))
/-- `square_mile` (`quantity.rs` 283). -/
def squareMileU : MUnit := .linear ['m', 'i', '²'] dArea (square (r (201168) (125)))
/-- `hectare` (`quantity.rs` 284). -/
def hectareU : MUnit := .linear ['h', 'a'] dArea (i (10000))
/-- `are` (`quantity.rs` 285). -/
def areU : MUnit := .linear ['a'] dArea (i (100))
/-- `acre` (`quantity.rs` 286). -/
def acreU : MUnit := .linear ['a', 'c'] dArea (Rational.mul (square footM) (i (43560)))
/-- `metre_per_second` (`quantity.rs` 289). -/
def metrePerSecondU : MUnit := .linear ['m', '/', 's'] dSpeed .one
/-- `kilometre_per_hour` (`quantity.rs` 290). -/
def kilometrePerHourU : MUnit := .linear ['k', 'm', '/', 'h'] dSpeed (r (5) (18))
/-- `mile_per_hour` (`quantity.rs` 291). -/
def milePerHourU : MUnit := .linear ['m', 'p', 'h'] dSpeed (Rational.expect (Rational.div (r (201168) (125)) (i (3600))))
/-- `foot_per_second` (`quantity.rs` 292). -/
def footPerSecondU : MUnit := .linear ['f', 't', '/', 's'] dSpeed footM
/-- `knot` (`quantity.rs` 293). -/
def knotU : MUnit := .linear ['k', 'n'] dSpeed (r (1852) (3600))
/-- `hertz` (`quantity.rs` 296). -/
def hertzU : MUnit := .linear ['H', 'z'] dFrequency .one
/-- `kilohertz` (`quantity.rs` 297). -/
def kilohertzU : MUnit := .linear ['k', 'H', 'z'] dFrequency (i (1000))
/-- `megahertz` (`quantity.rs` 298). -/
def megahertzU : MUnit := .linear ['M', 'H', 'z'] dFrequency (i (1000000))
/-- `gigahertz` (`quantity.rs` 299). -/
def gigahertzU : MUnit := .linear ['G', 'H', 'z'] dFrequency (i (1000000000))
/-- `rpm` (`quantity.rs` 300). -/
def rpmU : MUnit := .linear ['r', 'p', 'm'] dFrequency (r (1) (60))
/-- `newton` (`quantity.rs` 303). -/
def newtonU : MUnit := .linear ['N'] dForce .one
/-- `kilonewton` (`quantity.rs` 304). -/
def kilonewtonU : MUnit := .linear ['k', 'N'] dForce (i (1000))
/-- `dyne` (`quantity.rs` 305). -/
def dyneU : MUnit := .linear ['d', 'y', 'n'] dForce (r (1) (100000))
/-- `kilogram_force` (`quantity.rs` 306). -/
def kilogramForceU : MUnit := .linear ['k', 'g', 'f'] dForce g0
/-- `pound_force` (`quantity.rs` 307). -/
def poundForceU : MUnit := .linear ['l', 'b', 'f'] dForce (Rational.mul lbKg g0)
/-- `joule` (`quantity.rs` 310). -/
def jouleU : MUnit := .linear ['J'] dEnergy .one
/-- `kilojoule` (`quantity.rs` 311). -/
def kilojouleU : MUnit := .linear ['k', 'J'] dEnergy (i (1000))
/-- `megajoule` (`quantity.rs` 312). -/
def megajouleU : MUnit := .linear ['M', 'J'] dEnergy (i (1000000))
/-- `calorie` (`quantity.rs` 313). -/
def calorieU : MUnit := .linear ['c', 'a', 'l'] dEnergy (r (523) (125))
/-- `kilocalorie` (`quantity.rs` 314). -/
def kilocalorieU : MUnit := .linear ['k', 'c', 'a', 'l'] dEnergy (r (4184) (1))
/-- `watt_hour` (`quantity.rs` 315). -/
def wattHourU : MUnit := .linear ['W', 'h'] dEnergy (i (3600))
/-- `kilowatt_hour` (`quantity.rs` 316). -/
def kilowattHourU : MUnit := .linear ['k', 'W', 'h'] dEnergy (i (3600000))
/-- `erg` (`quantity.rs` 317). -/
def ergU : MUnit := .linear ['e', 'r', 'g'] dEnergy (r (1) (10000000))
/-- `electronvolt` (`quantity.rs` 318–325). -/
def electronvoltU : MUnit :=
  .linear ['e', 'V'] dEnergy (.expect (Rational.new 1602176634 (10 ^ 28)))
/-- `watt` (`quantity.rs` 328). -/
def wattU : MUnit := .linear ['W'] dPower .one
/-- `kilowatt` (`quantity.rs` 329). -/
def kilowattU : MUnit := .linear ['k', 'W'] dPower (i (1000))
/-- `megawatt` (`quantity.rs` 330). -/
def megawattU : MUnit := .linear ['M', 'W'] dPower (i (1000000))
/-- `horsepower` (`quantity.rs` 331). -/
def horsepowerU : MUnit := .linear ['h', 'p'] dPower (Rational.mul (Rational.mul (Rational.mul lbKg g0) footM) (i (550)))
/-- `pascal` (`quantity.rs` 334). -/
def pascalU : MUnit := .linear ['P', 'a'] dPressure .one
/-- `kilopascal` (`quantity.rs` 335). -/
def kilopascalU : MUnit := .linear ['k', 'P', 'a'] dPressure (i (1000))
/-- `bar` (`quantity.rs` 336). -/
def barU : MUnit := .linear ['b', 'a', 'r'] dPressure (i (100000))
/-- `millibar` (`quantity.rs` 337). -/
def millibarU : MUnit := .linear ['m', 'b', 'a', 'r'] dPressure (i (100))
/-- `atmosphere` (`quantity.rs` 338). -/
def atmosphereU : MUnit := .linear ['a', 't', 'm'] dPressure (i (101325))
/-- `psi` (`quantity.rs` 339). -/
def psiU : MUnit := .linear ['p', 's', 'i'] dPressure (Rational.expect (Rational.div (Rational.mul lbKg g0) (square inchM)))
/-- `bit` (`quantity.rs` 342). -/
def bitU : MUnit := .linear ['b', 'i', 't'] dInformation .one
/-- `byte` (`quantity.rs` 343). -/
def byteU : MUnit := .linear ['B'] dInformation (i (8))
/-- `kilobit` (`quantity.rs` 344). -/
def kilobitU : MUnit := .linear ['k', 'b', 'i', 't'] dInformation (i (1000))
/-- `kilobyte` (`quantity.rs` 345). -/
def kilobyteU : MUnit := .linear ['k', 'B'] dInformation (i (8000))
/-- `megabyte` (`quantity.rs` 346). -/
def megabyteU : MUnit := .linear ['M', 'B'] dInformation (i (8000000))
/-- `gigabyte` (`quantity.rs` 347). -/
def gigabyteU : MUnit := .linear ['G', 'B'] dInformation (i (8000000000))
/-- `kibibyte` (`quantity.rs` 348). -/
def kibibyteU : MUnit := .linear ['K', 'i', 'B'] dInformation (i (8 * 1024))
/-- `mebibyte` (`quantity.rs` 349). -/
def mebibyteU : MUnit := .linear ['M', 'i', 'B'] dInformation (i (8 * 1024 * 1024))
/-- `gibibyte` (`quantity.rs` 350). -/
def gibibyteU : MUnit := .linear ['G', 'i', 'B'] dInformation (i (8 * 1024 * 1024 * 1024))
/-- `turn` (`quantity.rs` 355). -/
def turnU : MUnit := .linear ['t', 'u', 'r', 'n'] dAngle .one
/-- `degree` (`quantity.rs` 356). -/
def degreeU : MUnit := .linear ['°'] dAngle (r (1) (360))
/-- `gradian` (`quantity.rs` 357). -/
def gradianU : MUnit := .linear ['g', 'r', 'a', 'd'] dAngle (r (1) (400))
/-- `arcminute` (`quantity.rs` 358). -/
def arcminuteU : MUnit := .linear ['′'] dAngle (r (1) (21600))
/-- `arcsecond` (`quantity.rs` 359). -/
def arcsecondU : MUnit := .linear ['″'] dAngle (r (1) (1296000))
/-- `ampere` (`quantity.rs` 362). -/
def ampereU : MUnit := .linear ['A'] dCurrent .one
/-- `milliampere` (`quantity.rs` 363). -/
def milliampereU : MUnit := .linear ['m', 'A'] dCurrent (r (1) (1000))
/-- `coulomb` (`quantity.rs` 364). -/
def coulombU : MUnit := .linear ['C'] dCharge .one
/-- `ampere_hour` (`quantity.rs` 365). -/
def ampereHourU : MUnit := .linear ['A', 'h'] dCharge (i (3600))
/-- `milliampere_hour` (`quantity.rs` 366). -/
def milliampereHourU : MUnit := .linear ['m', 'A', 'h'] dCharge (r (18) (5))
/-- `volt` (`quantity.rs` 367). -/
def voltU : MUnit := .linear ['V'] dVoltage .one
/-- `millivolt` (`quantity.rs` 368). -/
def millivoltU : MUnit := .linear ['m', 'V'] dVoltage (r (1) (1000))
/-- `kilovolt` (`quantity.rs` 369). -/
def kilovoltU : MUnit := .linear ['k', 'V'] dVoltage (i (1000))
/-- `ohm` (`quantity.rs` 370). -/
def ohmU : MUnit := .linear ['Ω'] dResistance .one
/-- `mole` (`quantity.rs` 373). -/
def moleU : MUnit := .linear ['m', 'o', 'l'] dAmount .one
/-- `candela` (`quantity.rs` 374). -/
def candelaU : MUnit := .linear ['c', 'd'] dLuminous .one
/-- `stick_of_butter` (`quantity.rs` 383). -/
def stickOfButterU : MUnit := .linear ['s', 't', 'i', 'c', 'k'] dVolume (Rational.expect (Rational.div usGallonM3 (i (32))))
/-- `dash` (`quantity.rs` 384). -/
def dashU : MUnit := .linear ['d', 'a', 's', 'h'] dVolume (Rational.expect (Rational.div usGallonM3 (i (6144))))
/-- `pinch` (`quantity.rs` 385). -/
def pinchU : MUnit := .linear ['p', 'i', 'n', 'c', 'h'] dVolume (Rational.expect (Rational.div usGallonM3 (i (12288))))
/-- `smidgen` (`quantity.rs` 386). -/
def smidgenU : MUnit := .linear ['s', 'm', 'i', 'd', 'g', 'e', 'n'] dVolume (Rational.expect (Rational.div usGallonM3 (i (24576))))
/-- `us_bushel_m3` (`quantity.rs` 388). -/
def usBushelM3 : Rational := (Rational.mul (cube inchM) (r (215042) (100)))
/-- `bushel` (`quantity.rs` 389). -/
def bushelU : MUnit := .linear ['b', 'u'] dVolume usBushelM3
/-- `peck` (`quantity.rs` 390). -/
def peckU : MUnit := .linear ['p', 'k'] dVolume (Rational.expect (Rational.div usBushelM3 (i (4))))
/-- `dry_gallon` (`quantity.rs` 391). -/
def dryGallonU : MUnit := .linear ['d', 'r', 'y', ' ', 'g', 'a', 'l'] dVolume (Rational.expect (Rational.div usBushelM3 (i (8))))
/-- `dry_quart` (`quantity.rs` 392). -/
def dryQuartU : MUnit := .linear ['d', 'r', 'y', ' ', 'q', 't'] dVolume (Rational.expect (Rational.div usBushelM3 (i (32))))
/-- `dry_pint` (`quantity.rs` 393). -/
def dryPintU : MUnit := .linear ['d', 'r', 'y', ' ', 'p', 't'] dVolume (Rational.expect (Rational.div usBushelM3 (i (64))))
/-- `cable` (`quantity.rs` 396). -/
def cableU : MUnit := .linear ['c', 'a', 'b', 'l', 'e'] dLength (r (926) (5))
/-- `league` (`quantity.rs` 397). -/
def leagueU : MUnit := .linear ['l', 'e', 'a'] dLength (r (603504) (125))
/-- `nautical_league` (`quantity.rs` 398). -/
def nauticalLeagueU : MUnit := .linear ['n', 'l'] dLength (i (5556))
/-- `light_second` (`quantity.rs` 401). -/
def lightSecondU : MUnit := .linear ['l', 's'] dLength (i (299792458))
/-- `light_minute` (`quantity.rs` 402). -/
def lightMinuteU : MUnit := .linear ['l', 'm', 'i', 'n'] dLength (i (299792458 * 60))
/-- `light_hour` (`quantity.rs` 403). -/
def lightHourU : MUnit := .linear ['l', 'h'] dLength (i (299792458 * 3600))
/-- `light_day` (`quantity.rs` 404). -/
def lightDayU : MUnit := .linear ['l', 'd'] dLength (i (299792458 * 86400))
/-- `lunar_distance` (`quantity.rs` 405). -/
def lunarDistanceU : MUnit := .linear ['L', 'D'] dLength (i (384399000))
/-- `solar_radius` (`quantity.rs` 406). -/
def solarRadiusU : MUnit := .linear ['R', '☉'] dLength (i (696340000))
/-- `earth_radius` (`quantity.rs` 407). -/
def earthRadiusU : MUnit := .linear ['R', '⊕'] dLength (i (6371000))
/-- `solar_mass` (`quantity.rs` 409). -/
def solarMassU : MUnit := .linear ['M', '☉'] dMass (e (198892) (25))
/-- `earth_mass` (`quantity.rs` 410). -/
def earthMassU : MUnit := .linear ['M', '⊕'] dMass (e (59722) (20))
/-- `jupiter_mass` (`quantity.rs` 411). -/
def jupiterMassU : MUnit := .linear ['M', '♃'] dMass (e (18982) (23))
/-- `gray` (`quantity.rs` 414). -/
def grayU : MUnit := .linear ['G', 'y'] dAbsorbedDose .one
/-- `sievert` (`quantity.rs` 415). -/
def sievertU : MUnit := .linear ['S', 'v'] dAbsorbedDose .one
/-- `rad_unit` (`quantity.rs` 416). -/
def radUnitU : MUnit := .linear ['r', 'a', 'd'] dAbsorbedDose (r (1) (100))
/-- `rem` (`quantity.rs` 417). -/
def remU : MUnit := .linear ['r', 'e', 'm'] dAbsorbedDose (r (1) (100))
/-- `becquerel` (`quantity.rs` 418). -/
def becquerelU : MUnit := .linear ['B', 'q'] dRadioactivity .one
/-- `curie` (`quantity.rs` 419). -/
def curieU : MUnit := .linear ['C', 'i'] dRadioactivity (i (37000000000))
/-- `roentgen` (`quantity.rs` 420). -/
def roentgenU : MUnit := .linear ['R'] dExposure (r (129) (500000))
/-- `katal` (`quantity.rs` 421). -/
def katalU : MUnit := .linear ['k', 'a', 't'] dCatalyticActivity .one
/-- `lumen` (`quantity.rs` 424). -/
def lumenU : MUnit := .linear ['l', 'm'] dLuminousFlux .one
/-- `lux` (`quantity.rs` 425). -/
def luxU : MUnit := .linear ['l', 'x'] dIlluminance .one
/-- `phot` (`quantity.rs` 426). -/
def photU : MUnit := .linear ['p', 'h'] dIlluminance (i (10000))
/-- `foot_candle` (`quantity.rs` 427). -/
def footCandleU : MUnit := .linear ['f', 'c'] dIlluminance (square (r (1250) (381)))
/-- `nit` (`quantity.rs` 428). -/
def nitU : MUnit := .linear ['n', 'i', 't'] dLuminance .one
/-- `bit_per_second` (`quantity.rs` 431). -/
def bitPerSecondU : MUnit := .linear ['b', 'i', 't', '/', 's'] dDataRate .one
/-- `kilobit_per_second` (`quantity.rs` 432). -/
def kilobitPerSecondU : MUnit := .linear ['k', 'b', 'p', 's'] dDataRate (i (1000))
/-- `megabit_per_second` (`quantity.rs` 433). -/
def megabitPerSecondU : MUnit := .linear ['M', 'b', 'p', 's'] dDataRate (i (1000000))
/-- `gigabit_per_second` (`quantity.rs` 434). -/
def gigabitPerSecondU : MUnit := .linear ['G', 'b', 'p', 's'] dDataRate (i (1000000000))
/-- `byte_per_second` (`quantity.rs` 435). -/
def bytePerSecondU : MUnit := .linear ['B', '/', 's'] dDataRate (i (8))
/-- `megabyte_per_second` (`quantity.rs` 436). -/
def megabytePerSecondU : MUnit := .linear ['M', 'B', '/', 's'] dDataRate (i (8000000))
/-- `cubic_metre_per_second` (`quantity.rs` 439). -/
def cubicMetrePerSecondU : MUnit := .linear ['m', '³', '/', 's'] dVolumetricFlow .one
/-- `litre_per_second` (`quantity.rs` 440). -/
def litrePerSecondU : MUnit := .linear ['L', '/', 's'] dVolumetricFlow (r (1) (1000))
/-- `litre_per_minute` (`quantity.rs` 441). -/
def litrePerMinuteU : MUnit := .linear ['L', '/', 'm', 'i', 'n'] dVolumetricFlow (r (1) (60000))
/-- `gallon_per_minute` (`quantity.rs` 442). -/
def gallonPerMinuteU : MUnit := .linear ['g', 'p', 'm'] dVolumetricFlow (Rational.expect (Rational.div usGallonM3 (i (60))))
/-- `cubic_foot_per_minute` (`quantity.rs` 443). -/
def cubicFootPerMinuteU : MUnit := .linear ['c', 'f', 'm'] dVolumetricFlow (Rational.expect (Rational.div (cube footM) (i (60))))
/-- `molar` (`quantity.rs` 446). -/
def molarU : MUnit := .linear ['M'] dMolarConcentration (i (1000))
/-- `millimolar` (`quantity.rs` 447). -/
def millimolarU : MUnit := .linear ['m', 'M'] dMolarConcentration .one
/-- `micromolar` (`quantity.rs` 448). -/
def micromolarU : MUnit := .linear ['µ', 'M'] dMolarConcentration (r (1) (1000))
/-- `molal` (`quantity.rs` 449). -/
def molalU : MUnit := .linear ['m'] dMolality .one
/-- `pascal_second` (`quantity.rs` 452). -/
def pascalSecondU : MUnit := .linear ['P', 'a', '·', 's'] dDynamicViscosity .one
/-- `poise` (`quantity.rs` 453). -/
def poiseU : MUnit := .linear ['P'] dDynamicViscosity (r (1) (10))
/-- `centipoise` (`quantity.rs` 454). -/
def centipoiseU : MUnit := .linear ['c', 'P'] dDynamicViscosity (r (1) (1000))
/-- `square_metre_per_second` (`quantity.rs` 455). -/
def squareMetrePerSecondU : MUnit := .linear ['m', '²', '/', 's'] dKinematicViscosity .one
/-- `stokes` (`quantity.rs` 456). -/
def stokesU : MUnit := .linear ['S', 't'] dKinematicViscosity (r (1) (10000))
/-- `centistokes` (`quantity.rs` 457). -/
def centistokesU : MUnit := .linear ['c', 'S', 't'] dKinematicViscosity (r (1) (1000000))
/-- `mile_per_gallon` (`quantity.rs` 460). -/
def milePerGallonU : MUnit := .linear ['m', 'p', 'g'] dFuelEconomy (Rational.expect (Rational.div (r (201168) (125)) usGallonM3))
/-- `km_per_litre` (`quantity.rs` 461). -/
def kmPerLitreU : MUnit := .linear ['k', 'm', '/', 'L'] dFuelEconomy (Rational.expect (Rational.div (i (1000)) (r (1) (1000))))
/-- `newton_metre` (`quantity.rs` 464). -/
def newtonMetreU : MUnit := .linear ['N', '·', 'm'] dEnergy .one
/-- `pound_foot` (`quantity.rs` 465). -/
def poundFootU : MUnit := .linear ['l', 'b', '·', 'f', 't'] dEnergy (Rational.mul (Rational.mul lbKg g0) footM)
/-- `megametre` (`quantity.rs` 468). -/
def megametreU : MUnit := .linear ['M', 'm'] dLength (i (1000000))
/-- `gigametre` (`quantity.rs` 469). -/
def gigametreU : MUnit := .linear ['G', 'm'] dLength (i (1000000000))
/-- `picometre` (`quantity.rs` 470). -/
def picometreU : MUnit := .linear ['p', 'm'] dLength (r (1) (1000000000000))
/-- `femtometre` (`quantity.rs` 471). -/
def femtometreU : MUnit := .linear ['f', 'm'] dLength (r (1) (1000000000000000))
/-- `nanogram` (`quantity.rs` 472). -/
def nanogramU : MUnit := .linear ['n', 'g'] dMass (r (1) (1000000000000))
/-- `picosecond` (`quantity.rs` 473). -/
def picosecondU : MUnit := .linear ['p', 's'] dTime (r (1) (1000000000000))
/-- `gigawatt` (`quantity.rs` 474). -/
def gigawattU : MUnit := .linear ['G', 'W'] dPower (i (1000000000))
/-- `terawatt` (`quantity.rs` 475). -/
def terawattU : MUnit := .linear ['T', 'W'] dPower (i (1000000000000))
/-- `gigajoule` (`quantity.rs` 476). -/
def gigajouleU : MUnit := .linear ['G', 'J'] dEnergy (i (1000000000))
/-- `terajoule` (`quantity.rs` 477). -/
def terajouleU : MUnit := .linear ['T', 'J'] dEnergy (i (1000000000000))
/-- `terabit` (`quantity.rs` 478). -/
def terabitU : MUnit := .linear ['T', 'b', 'i', 't'] dInformation (i (1000000000000))
/-- `terabyte` (`quantity.rs` 479). -/
def terabyteU : MUnit := .linear ['T', 'B'] dInformation (i (8000000000000))
/-- `petabyte` (`quantity.rs` 480). -/
def petabyteU : MUnit := .linear ['P', 'B'] dInformation (i (8000000000000000))
/-- `siemens` (`quantity.rs` 483). -/
def siemensU : MUnit := .linear ['S'] dConductance .one
/-- `millisiemens` (`quantity.rs` 484). -/
def millisiemensU : MUnit := .linear ['m', 'S'] dConductance (r (1) (1000))
/-- `farad` (`quantity.rs` 485). -/
def faradU : MUnit := .linear ['F'] dCapacitance .one
/-- `microfarad` (`quantity.rs` 486). -/
def microfaradU : MUnit := .linear ['µ', 'F'] dCapacitance (r (1) (1000000))
/-- `nanofarad` (`quantity.rs` 487). -/
def nanofaradU : MUnit := .linear ['n', 'F'] dCapacitance (r (1) (1000000000))
/-- `picofarad` (`quantity.rs` 488). -/
def picofaradU : MUnit := .linear ['p', 'F'] dCapacitance (r (1) (1000000000000))
/-- `weber` (`quantity.rs` 489). -/
def weberU : MUnit := .linear ['W', 'b'] dMagneticFlux .one
/-- `maxwell` (`quantity.rs` 490). -/
def maxwellU : MUnit := .linear ['M', 'x'] dMagneticFlux (r (1) (100000000))
/-- `henry` (`quantity.rs` 491). -/
def henryU : MUnit := .linear ['H'] dInductance .one
/-- `millihenry` (`quantity.rs` 492). -/
def millihenryU : MUnit := .linear ['m', 'H'] dInductance (r (1) (1000))
/-- `microhenry` (`quantity.rs` 493). -/
def microhenryU : MUnit := .linear ['µ', 'H'] dInductance (r (1) (1000000))
/-- `tesla` (`quantity.rs` 494). -/
def teslaU : MUnit := .linear ['T'] dMagneticFluxDensity .one
/-- `millitesla` (`quantity.rs` 495). -/
def milliteslaU : MUnit := .linear ['m', 'T'] dMagneticFluxDensity (r (1) (1000))
/-- `gauss` (`quantity.rs` 496). -/
def gaussU : MUnit := .linear ['G'] dMagneticFluxDensity (r (1) (10000))
/-- `newton_per_metre` (`quantity.rs` 499). -/
def newtonPerMetreU : MUnit := .linear ['N', '/', 'm'] dSurfaceTension .one
/-- `dyne_per_centimetre` (`quantity.rs` 500). -/
def dynePerCentimetreU : MUnit := .linear ['d', 'y', 'n', '/', 'c', 'm'] dSurfaceTension (r (1) (1000))
/-- `each` (`quantity.rs` 504). -/
def eachU : MUnit := .linear ['e', 'a'] Dimension.dimensionless .one
/-- `pair` (`quantity.rs` 505). -/
def pairU : MUnit := .linear ['p', 'a', 'i', 'r'] Dimension.dimensionless (i (2))
/-- `dozen` (`quantity.rs` 506). -/
def dozenU : MUnit := .linear ['d', 'z'] Dimension.dimensionless (i (12))
/-- `baker_dozen` (`quantity.rs` 507). -/
def bakerDozenU : MUnit := .linear ['b', 'a', 'k', 'e', 'r', '\'', 's', ' ', 'd', 'z'] Dimension.dimensionless (i (13))
/-- `score` (`quantity.rs` 508). -/
def scoreU : MUnit := .linear ['s', 'c', 'o', 'r', 'e'] Dimension.dimensionless (i (20))
/-- `gross` (`quantity.rs` 509). -/
def grossU : MUnit := .linear ['g', 'r', 'o', 's', 's'] Dimension.dimensionless (i (144))
/-- `great_gross` (`quantity.rs` 510). -/
def greatGrossU : MUnit := .linear ['g', 'r', 'e', 'a', 't', ' ', 'g', 'r', 'o', 's', 's'] Dimension.dimensionless (i (1728))
/-- `ream` (`quantity.rs` 511). -/
def reamU : MUnit := .linear ['r', 'e', 'a', 'm'] Dimension.dimensionless (i (500))
/-- `percent` (`quantity.rs` 512). -/
def percentU : MUnit := .linear ['%'] Dimension.dimensionless (r (1) (100))
/-- `permille` (`quantity.rs` 513). -/
def permilleU : MUnit := .linear ['‰'] Dimension.dimensionless (r (1) (1000))
/-- `ppm` (`quantity.rs` 514). -/
def ppmU : MUnit := .linear ['p', 'p', 'm'] Dimension.dimensionless (r (1) (1000000))
/-- `ppb` (`quantity.rs` 515). -/
def ppbU : MUnit := .linear ['p', 'p', 'b'] Dimension.dimensionless (r (1) (1000000000))
/-- `basis_point` (`quantity.rs` 516). -/
def basisPointU : MUnit := .linear ['b', 'p'] Dimension.dimensionless (r (1) (10000))

/-- Every unit of the catalogue. -/
def catalogue : List MUnit :=
  [metreU, kilometreU, hectometreU, dekametreU, decimetreU, centimetreU, millimetreU, micrometreU,
   nanometreU, angstromU, inchU, footU, yardU, mileU, nauticalMileU, fathomU, furlongU, chainU,
   rodU, handU, pointU, picaU, thouU, astronomicalUnitU, lightYearU, kilogramU, gramU, milligramU,
   microgramU, tonneU, poundU, ounceU, stoneU, shortTonU, longTonU, hundredweightU, grainU, dramU,
   caratU, troyOunceU, troyPoundU, secondU, millisecondU, microsecondU, nanosecondU, minuteU,
   hourU, dayU, weekU, fortnightU, julianYearU, decadeU, centuryU, kelvinU, celsiusU, fahrenheitU,
   rankineU, reaumurU, cubicMetreU, litreU, millilitreU, centilitreU, decilitreU, cubicCentimetreU,
   cubicInchU, cubicFootU, usGallonU, usQuartU, usPintU, usCupU, usGillU, usFluidOunceU,
   tablespoonU, teaspoonU, oilBarrelU, imperialGallonU, imperialPintU, imperialFluidOunceU,
   squareMetreU, squareKilometreU, squareCentimetreU, squareInchU, squareFootU, squareYardU,
   squareMileU, hectareU, areU, acreU, metrePerSecondU, kilometrePerHourU, milePerHourU,
   footPerSecondU, knotU, hertzU, kilohertzU, megahertzU, gigahertzU, rpmU, newtonU, kilonewtonU,
   dyneU, kilogramForceU, poundForceU, jouleU, kilojouleU, megajouleU, calorieU, kilocalorieU,
   wattHourU, kilowattHourU, ergU, electronvoltU, wattU, kilowattU, megawattU, horsepowerU,
   pascalU, kilopascalU, barU, millibarU, atmosphereU, psiU, bitU, byteU, kilobitU, kilobyteU,
   megabyteU, gigabyteU, kibibyteU, mebibyteU, gibibyteU, turnU, degreeU, gradianU, arcminuteU,
   arcsecondU, ampereU, milliampereU, coulombU, ampereHourU, milliampereHourU, voltU, millivoltU,
   kilovoltU, ohmU, moleU, candelaU, stickOfButterU, dashU, pinchU, smidgenU, bushelU, peckU,
   dryGallonU, dryQuartU, dryPintU, cableU, leagueU, nauticalLeagueU, lightSecondU, lightMinuteU,
   lightHourU, lightDayU, lunarDistanceU, solarRadiusU, earthRadiusU, solarMassU, earthMassU,
   jupiterMassU, grayU, sievertU, radUnitU, remU, becquerelU, curieU, roentgenU, katalU, lumenU,
   luxU, photU, footCandleU, nitU, bitPerSecondU, kilobitPerSecondU, megabitPerSecondU,
   gigabitPerSecondU, bytePerSecondU, megabytePerSecondU, cubicMetrePerSecondU, litrePerSecondU,
   litrePerMinuteU, gallonPerMinuteU, cubicFootPerMinuteU, molarU, millimolarU, micromolarU,
   molalU, pascalSecondU, poiseU, centipoiseU, squareMetrePerSecondU, stokesU, centistokesU,
   milePerGallonU, kmPerLitreU, newtonMetreU, poundFootU, megametreU, gigametreU, picometreU,
   femtometreU, nanogramU, picosecondU, gigawattU, terawattU, gigajouleU, terajouleU, terabitU,
   terabyteU, petabyteU, siemensU, millisiemensU, faradU, microfaradU, nanofaradU, picofaradU,
   weberU, maxwellU, henryU, millihenryU, microhenryU, teslaU, milliteslaU, gaussU,
   newtonPerMetreU, dynePerCentimetreU, eachU, pairU, dozenU, bakerDozenU, scoreU, grossU,
   greatGrossU, reamU, percentU, permilleU, ppmU, ppbU, basisPointU]

/-- The names in `by_name` (`quantity.rs` 522–704), in the order of its cases. -/
def names : List (List Char × MUnit) :=
  [(['m', 'e', 't', 'e', 'r'], metreU),
   (['m', 'e', 't', 'r', 'e'], metreU),
   (['m', 'e', 't', 'e', 'r', 's'], metreU),
   (['m', 'e', 't', 'r', 'e', 's'], metreU),
   (['m'], metreU),
   (['k', 'i', 'l', 'o', 'm', 'e', 't', 'e', 'r'], kilometreU),
   (['k', 'i', 'l', 'o', 'm', 'e', 't', 'r', 'e'], kilometreU),
   (['k', 'i', 'l', 'o', 'm', 'e', 't', 'e', 'r', 's'], kilometreU),
   (['k', 'i', 'l', 'o', 'm', 'e', 't', 'r', 'e', 's'], kilometreU),
   (['k', 'm'], kilometreU),
   (['c', 'e', 'n', 't', 'i', 'm', 'e', 't', 'e', 'r'], centimetreU),
   (['c', 'e', 'n', 't', 'i', 'm', 'e', 't', 'r', 'e'], centimetreU),
   (['c', 'e', 'n', 't', 'i', 'm', 'e', 't', 'e', 'r', 's'], centimetreU),
   (['c', 'e', 'n', 't', 'i', 'm', 'e', 't', 'r', 'e', 's'], centimetreU),
   (['c', 'm'], centimetreU),
   (['m', 'i', 'l', 'l', 'i', 'm', 'e', 't', 'e', 'r'], millimetreU),
   (['m', 'i', 'l', 'l', 'i', 'm', 'e', 't', 'r', 'e'], millimetreU),
   (['m', 'i', 'l', 'l', 'i', 'm', 'e', 't', 'e', 'r', 's'], millimetreU),
   (['m', 'i', 'l', 'l', 'i', 'm', 'e', 't', 'r', 'e', 's'], millimetreU),
   (['m', 'm'], millimetreU),
   (['m', 'i', 'c', 'r', 'o', 'm', 'e', 't', 'e', 'r'], micrometreU),
   (['m', 'i', 'c', 'r', 'o', 'm', 'e', 't', 'r', 'e'], micrometreU),
   (['m', 'i', 'c', 'r', 'o', 'n'], micrometreU),
   (['m', 'i', 'c', 'r', 'o', 'n', 's'], micrometreU),
   (['µ', 'm'], micrometreU),
   (['u', 'm'], micrometreU),
   (['n', 'a', 'n', 'o', 'm', 'e', 't', 'e', 'r'], nanometreU),
   (['n', 'a', 'n', 'o', 'm', 'e', 't', 'r', 'e'], nanometreU),
   (['n', 'a', 'n', 'o', 'm', 'e', 't', 'e', 'r', 's'], nanometreU),
   (['n', 'a', 'n', 'o', 'm', 'e', 't', 'r', 'e', 's'], nanometreU),
   (['n', 'm'], nanometreU),
   (['i', 'n', 'c', 'h'], inchU),
   (['i', 'n', 'c', 'h', 'e', 's'], inchU),
   (['i', 'n'], inchU),
   (['f', 'o', 'o', 't'], footU),
   (['f', 'e', 'e', 't'], footU),
   (['f', 't'], footU),
   (['y', 'a', 'r', 'd'], yardU),
   (['y', 'a', 'r', 'd', 's'], yardU),
   (['y', 'd'], yardU),
   (['m', 'i', 'l', 'e'], mileU),
   (['m', 'i', 'l', 'e', 's'], mileU),
   (['m', 'i'], mileU),
   (['n', 'a', 'u', 't', 'i', 'c', 'a', 'l', ' ', 'm', 'i', 'l', 'e'], nauticalMileU),
   (['n', 'a', 'u', 't', 'i', 'c', 'a', 'l', ' ', 'm', 'i', 'l', 'e', 's'], nauticalMileU),
   (['n', 'm', 'i'], nauticalMileU),
   (['a', 'n', 'g', 's', 't', 'r', 'o', 'm'], angstromU),
   (['a', 'n', 'g', 's', 't', 'r', 'o', 'm', 's'], angstromU),
   (['å', 'n', 'g', 's', 't', 'r', 'ö', 'm'], angstromU),
   (['å'], angstromU),
   (['l', 'i', 'g', 'h', 't', ' ', 'y', 'e', 'a', 'r'], lightYearU),
   (['l', 'i', 'g', 'h', 't', ' ', 'y', 'e', 'a', 'r', 's'], lightYearU),
   (['l', 'i', 'g', 'h', 't', 'y', 'e', 'a', 'r'], lightYearU),
   (['l', 'y'], lightYearU),
   (['a', 's', 't', 'r', 'o', 'n', 'o', 'm', 'i', 'c', 'a', 'l', ' ', 'u', 'n', 'i', 't'], astronomicalUnitU),
   (['a', 's', 't', 'r', 'o', 'n', 'o', 'm', 'i', 'c', 'a', 'l', ' ', 'u', 'n', 'i', 't', 's'], astronomicalUnitU),
   (['a', 'u'], astronomicalUnitU),
   (['k', 'i', 'l', 'o', 'g', 'r', 'a', 'm'], kilogramU),
   (['k', 'i', 'l', 'o', 'g', 'r', 'a', 'm', 's'], kilogramU),
   (['k', 'g'], kilogramU),
   (['g', 'r', 'a', 'm'], gramU),
   (['g', 'r', 'a', 'm', 's'], gramU),
   (['g'], gramU),
   (['m', 'i', 'l', 'l', 'i', 'g', 'r', 'a', 'm'], milligramU),
   (['m', 'i', 'l', 'l', 'i', 'g', 'r', 'a', 'm', 's'], milligramU),
   (['m', 'g'], milligramU),
   (['m', 'i', 'c', 'r', 'o', 'g', 'r', 'a', 'm'], microgramU),
   (['m', 'i', 'c', 'r', 'o', 'g', 'r', 'a', 'm', 's'], microgramU),
   (['µ', 'g'], microgramU),
   (['u', 'g'], microgramU),
   (['t', 'o', 'n', 'n', 'e'], tonneU),
   (['t', 'o', 'n', 'n', 'e', 's'], tonneU),
   (['m', 'e', 't', 'r', 'i', 'c', ' ', 't', 'o', 'n'], tonneU),
   (['m', 'e', 't', 'r', 'i', 'c', ' ', 't', 'o', 'n', 's'], tonneU),
   (['t'], tonneU),
   (['p', 'o', 'u', 'n', 'd'], poundU),
   (['p', 'o', 'u', 'n', 'd', 's'], poundU),
   (['l', 'b'], poundU),
   (['l', 'b', 's'], poundU),
   (['o', 'u', 'n', 'c', 'e'], ounceU),
   (['o', 'u', 'n', 'c', 'e', 's'], ounceU),
   (['o', 'z'], ounceU),
   (['s', 't', 'o', 'n', 'e'], stoneU),
   (['s', 't', 'o', 'n', 'e', 's'], stoneU),
   (['s', 't'], stoneU),
   (['c', 'a', 'r', 'a', 't'], caratU),
   (['c', 'a', 'r', 'a', 't', 's'], caratU),
   (['c', 't'], caratU),
   (['s', 'e', 'c', 'o', 'n', 'd'], secondU),
   (['s', 'e', 'c', 'o', 'n', 'd', 's'], secondU),
   (['s', 'e', 'c'], secondU),
   (['s', 'e', 'c', 's'], secondU),
   (['s'], secondU),
   (['m', 'i', 'l', 'l', 'i', 's', 'e', 'c', 'o', 'n', 'd'], millisecondU),
   (['m', 'i', 'l', 'l', 'i', 's', 'e', 'c', 'o', 'n', 'd', 's'], millisecondU),
   (['m', 's'], millisecondU),
   (['m', 'i', 'c', 'r', 'o', 's', 'e', 'c', 'o', 'n', 'd'], microsecondU),
   (['m', 'i', 'c', 'r', 'o', 's', 'e', 'c', 'o', 'n', 'd', 's'], microsecondU),
   (['µ', 's'], microsecondU),
   (['u', 's'], microsecondU),
   (['n', 'a', 'n', 'o', 's', 'e', 'c', 'o', 'n', 'd'], nanosecondU),
   (['n', 'a', 'n', 'o', 's', 'e', 'c', 'o', 'n', 'd', 's'], nanosecondU),
   (['n', 's'], nanosecondU),
   (['m', 'i', 'n', 'u', 't', 'e'], minuteU),
   (['m', 'i', 'n', 'u', 't', 'e', 's'], minuteU),
   (['m', 'i', 'n'], minuteU),
   (['m', 'i', 'n', 's'], minuteU),
   (['h', 'o', 'u', 'r'], hourU),
   (['h', 'o', 'u', 'r', 's'], hourU),
   (['h', 'r'], hourU),
   (['h', 'r', 's'], hourU),
   (['h'], hourU),
   (['d', 'a', 'y'], dayU),
   (['d', 'a', 'y', 's'], dayU),
   (['w', 'e', 'e', 'k'], weekU),
   (['w', 'e', 'e', 'k', 's'], weekU),
   (['w', 'k'], weekU),
   (['y', 'e', 'a', 'r'], julianYearU),
   (['y', 'e', 'a', 'r', 's'], julianYearU),
   (['y', 'r'], julianYearU),
   (['y', 'r', 's'], julianYearU),
   (['k', 'e', 'l', 'v', 'i', 'n'], kelvinU),
   (['k'], kelvinU),
   (['c', 'e', 'l', 's', 'i', 'u', 's'], celsiusU),
   (['c', 'e', 'n', 't', 'i', 'g', 'r', 'a', 'd', 'e'], celsiusU),
   (['°', 'c'], celsiusU),
   (['c'], celsiusU),
   (['f', 'a', 'h', 'r', 'e', 'n', 'h', 'e', 'i', 't'], fahrenheitU),
   (['°', 'f'], fahrenheitU),
   (['f'], fahrenheitU),
   (['r', 'a', 'n', 'k', 'i', 'n', 'e'], rankineU),
   (['°', 'r'], rankineU),
   (['r', 'e', 'a', 'u', 'm', 'u', 'r'], reaumurU),
   (['r', 'é', 'a', 'u', 'm', 'u', 'r'], reaumurU),
   (['°', 'r', 'é'], reaumurU),
   (['l', 'i', 't', 'e', 'r'], litreU),
   (['l', 'i', 't', 'r', 'e'], litreU),
   (['l', 'i', 't', 'e', 'r', 's'], litreU),
   (['l', 'i', 't', 'r', 'e', 's'], litreU),
   (['l'], litreU),
   (['m', 'i', 'l', 'l', 'i', 'l', 'i', 't', 'e', 'r'], millilitreU),
   (['m', 'i', 'l', 'l', 'i', 'l', 'i', 't', 'r', 'e'], millilitreU),
   (['m', 'i', 'l', 'l', 'i', 'l', 'i', 't', 'e', 'r', 's'], millilitreU),
   (['m', 'i', 'l', 'l', 'i', 'l', 'i', 't', 'r', 'e', 's'], millilitreU),
   (['m', 'l'], millilitreU),
   (['c', 'u', 'b', 'i', 'c', ' ', 'm', 'e', 't', 'e', 'r'], cubicMetreU),
   (['c', 'u', 'b', 'i', 'c', ' ', 'm', 'e', 't', 'r', 'e'], cubicMetreU),
   (['m', '3'], cubicMetreU),
   (['m', '³'], cubicMetreU),
   (['g', 'a', 'l', 'l', 'o', 'n'], usGallonU),
   (['g', 'a', 'l', 'l', 'o', 'n', 's'], usGallonU),
   (['g', 'a', 'l'], usGallonU),
   (['q', 'u', 'a', 'r', 't'], usQuartU),
   (['q', 'u', 'a', 'r', 't', 's'], usQuartU),
   (['q', 't'], usQuartU),
   (['p', 'i', 'n', 't'], usPintU),
   (['p', 'i', 'n', 't', 's'], usPintU),
   (['p', 't'], usPintU),
   (['c', 'u', 'p'], usCupU),
   (['c', 'u', 'p', 's'], usCupU),
   (['t', 'a', 'b', 'l', 'e', 's', 'p', 'o', 'o', 'n'], tablespoonU),
   (['t', 'a', 'b', 'l', 'e', 's', 'p', 'o', 'o', 'n', 's'], tablespoonU),
   (['t', 'b', 's', 'p'], tablespoonU),
   (['t', 'e', 'a', 's', 'p', 'o', 'o', 'n'], teaspoonU),
   (['t', 'e', 'a', 's', 'p', 'o', 'o', 'n', 's'], teaspoonU),
   (['t', 's', 'p'], teaspoonU),
   (['f', 'l', 'u', 'i', 'd', ' ', 'o', 'u', 'n', 'c', 'e'], usFluidOunceU),
   (['f', 'l', 'u', 'i', 'd', ' ', 'o', 'u', 'n', 'c', 'e', 's'], usFluidOunceU),
   (['f', 'l', ' ', 'o', 'z'], usFluidOunceU),
   (['s', 'q', 'u', 'a', 'r', 'e', ' ', 'm', 'e', 't', 'e', 'r'], squareMetreU),
   (['s', 'q', 'u', 'a', 'r', 'e', ' ', 'm', 'e', 't', 'r', 'e'], squareMetreU),
   (['s', 'q', 'u', 'a', 'r', 'e', ' ', 'm', 'e', 't', 'e', 'r', 's'], squareMetreU),
   (['s', 'q', 'u', 'a', 'r', 'e', ' ', 'm', 'e', 't', 'r', 'e', 's'], squareMetreU),
   (['m', '2'], squareMetreU),
   (['s', 'q', 'u', 'a', 'r', 'e', ' ', 'f', 'o', 'o', 't'], squareFootU),
   (['s', 'q', 'u', 'a', 'r', 'e', ' ', 'f', 'e', 'e', 't'], squareFootU),
   (['s', 'q', ' ', 'f', 't'], squareFootU),
   (['s', 'q', 'u', 'a', 'r', 'e', ' ', 'i', 'n', 'c', 'h'], squareInchU),
   (['s', 'q', 'u', 'a', 'r', 'e', ' ', 'i', 'n', 'c', 'h', 'e', 's'], squareInchU),
   (['s', 'q', ' ', 'i', 'n'], squareInchU),
   (['h', 'e', 'c', 't', 'a', 'r', 'e'], hectareU),
   (['h', 'e', 'c', 't', 'a', 'r', 'e', 's'], hectareU),
   (['h', 'a'], hectareU),
   (['a', 'c', 'r', 'e'], acreU),
   (['a', 'c', 'r', 'e', 's'], acreU),
   (['m', 'e', 't', 'e', 'r', ' ', 'p', 'e', 'r', ' ', 's', 'e', 'c', 'o', 'n', 'd'], metrePerSecondU),
   (['m', 'e', 't', 'r', 'e', ' ', 'p', 'e', 'r', ' ', 's', 'e', 'c', 'o', 'n', 'd'], metrePerSecondU),
   (['m', 'e', 't', 'e', 'r', 's', ' ', 'p', 'e', 'r', ' ', 's', 'e', 'c', 'o', 'n', 'd'], metrePerSecondU),
   (['m', '/', 's'], metrePerSecondU),
   (['k', 'i', 'l', 'o', 'm', 'e', 't', 'e', 'r', ' ', 'p', 'e', 'r', ' ', 'h', 'o', 'u', 'r'], kilometrePerHourU),
   (['k', 'i', 'l', 'o', 'm', 'e', 't', 'r', 'e', ' ', 'p', 'e', 'r', ' ', 'h', 'o', 'u', 'r'], kilometrePerHourU),
   (['k', 'm', '/', 'h'], kilometrePerHourU),
   (['k', 'p', 'h'], kilometrePerHourU),
   (['m', 'i', 'l', 'e', ' ', 'p', 'e', 'r', ' ', 'h', 'o', 'u', 'r'], milePerHourU),
   (['m', 'i', 'l', 'e', 's', ' ', 'p', 'e', 'r', ' ', 'h', 'o', 'u', 'r'], milePerHourU),
   (['m', 'p', 'h'], milePerHourU),
   (['k', 'n', 'o', 't'], knotU),
   (['k', 'n', 'o', 't', 's'], knotU),
   (['k', 'n'], knotU),
   (['h', 'e', 'r', 't', 'z'], hertzU),
   (['h', 'z'], hertzU),
   (['k', 'i', 'l', 'o', 'h', 'e', 'r', 't', 'z'], kilohertzU),
   (['k', 'h', 'z'], kilohertzU),
   (['m', 'e', 'g', 'a', 'h', 'e', 'r', 't', 'z'], megahertzU),
   (['m', 'h', 'z'], megahertzU),
   (['g', 'i', 'g', 'a', 'h', 'e', 'r', 't', 'z'], gigahertzU),
   (['g', 'h', 'z'], gigahertzU),
   (['j', 'o', 'u', 'l', 'e'], jouleU),
   (['j', 'o', 'u', 'l', 'e', 's'], jouleU),
   (['j'], jouleU),
   (['k', 'i', 'l', 'o', 'j', 'o', 'u', 'l', 'e'], kilojouleU),
   (['k', 'i', 'l', 'o', 'j', 'o', 'u', 'l', 'e', 's'], kilojouleU),
   (['k', 'j'], kilojouleU),
   (['c', 'a', 'l', 'o', 'r', 'i', 'e'], calorieU),
   (['c', 'a', 'l', 'o', 'r', 'i', 'e', 's'], calorieU),
   (['c', 'a', 'l'], calorieU),
   (['k', 'i', 'l', 'o', 'c', 'a', 'l', 'o', 'r', 'i', 'e'], kilocalorieU),
   (['k', 'i', 'l', 'o', 'c', 'a', 'l', 'o', 'r', 'i', 'e', 's'], kilocalorieU),
   (['k', 'c', 'a', 'l'], kilocalorieU),
   (['w', 'a', 't', 't', ' ', 'h', 'o', 'u', 'r'], wattHourU),
   (['w', 'a', 't', 't', ' ', 'h', 'o', 'u', 'r', 's'], wattHourU),
   (['w', 'h'], wattHourU),
   (['k', 'i', 'l', 'o', 'w', 'a', 't', 't', ' ', 'h', 'o', 'u', 'r'], kilowattHourU),
   (['k', 'i', 'l', 'o', 'w', 'a', 't', 't', ' ', 'h', 'o', 'u', 'r', 's'], kilowattHourU),
   (['k', 'w', 'h'], kilowattHourU),
   (['e', 'l', 'e', 'c', 't', 'r', 'o', 'n', 'v', 'o', 'l', 't'], electronvoltU),
   (['e', 'l', 'e', 'c', 't', 'r', 'o', 'n', 'v', 'o', 'l', 't', 's'], electronvoltU),
   (['e', 'v'], electronvoltU),
   (['w', 'a', 't', 't'], wattU),
   (['w', 'a', 't', 't', 's'], wattU),
   (['w'], wattU),
   (['k', 'i', 'l', 'o', 'w', 'a', 't', 't'], kilowattU),
   (['k', 'i', 'l', 'o', 'w', 'a', 't', 't', 's'], kilowattU),
   (['k', 'w'], kilowattU),
   (['m', 'e', 'g', 'a', 'w', 'a', 't', 't'], megawattU),
   (['m', 'e', 'g', 'a', 'w', 'a', 't', 't', 's'], megawattU),
   (['m', 'w'], megawattU),
   (['h', 'o', 'r', 's', 'e', 'p', 'o', 'w', 'e', 'r'], horsepowerU),
   (['h', 'p'], horsepowerU),
   (['p', 'a', 's', 'c', 'a', 'l'], pascalU),
   (['p', 'a', 's', 'c', 'a', 'l', 's'], pascalU),
   (['p', 'a'], pascalU),
   (['k', 'i', 'l', 'o', 'p', 'a', 's', 'c', 'a', 'l'], kilopascalU),
   (['k', 'i', 'l', 'o', 'p', 'a', 's', 'c', 'a', 'l', 's'], kilopascalU),
   (['k', 'p', 'a'], kilopascalU),
   (['b', 'a', 'r'], barU),
   (['b', 'a', 'r', 's'], barU),
   (['a', 't', 'm', 'o', 's', 'p', 'h', 'e', 'r', 'e'], atmosphereU),
   (['a', 't', 'm', 'o', 's', 'p', 'h', 'e', 'r', 'e', 's'], atmosphereU),
   (['a', 't', 'm'], atmosphereU),
   (['p', 's', 'i'], psiU),
   (['b', 'i', 't'], bitU),
   (['b', 'i', 't', 's'], bitU),
   (['b', 'y', 't', 'e'], byteU),
   (['b', 'y', 't', 'e', 's'], byteU),
   (['k', 'i', 'l', 'o', 'b', 'y', 't', 'e'], kilobyteU),
   (['k', 'i', 'l', 'o', 'b', 'y', 't', 'e', 's'], kilobyteU),
   (['k', 'b'], kilobyteU),
   (['m', 'e', 'g', 'a', 'b', 'y', 't', 'e'], megabyteU),
   (['m', 'e', 'g', 'a', 'b', 'y', 't', 'e', 's'], megabyteU),
   (['m', 'b'], megabyteU),
   (['g', 'i', 'g', 'a', 'b', 'y', 't', 'e'], gigabyteU),
   (['g', 'i', 'g', 'a', 'b', 'y', 't', 'e', 's'], gigabyteU),
   (['g', 'b'], gigabyteU),
   (['t', 'u', 'r', 'n'], turnU),
   (['t', 'u', 'r', 'n', 's'], turnU),
   (['d', 'e', 'g', 'r', 'e', 'e'], degreeU),
   (['d', 'e', 'g', 'r', 'e', 'e', 's'], degreeU),
   (['d', 'e', 'g'], degreeU),
   (['°'], degreeU),
   (['g', 'r', 'a', 'd', 'i', 'a', 'n'], gradianU),
   (['g', 'r', 'a', 'd', 'i', 'a', 'n', 's'], gradianU),
   (['g', 'r', 'a', 'd'], gradianU),
   (['a', 'r', 'c', 'm', 'i', 'n', 'u', 't', 'e'], arcminuteU),
   (['a', 'r', 'c', 'm', 'i', 'n', 'u', 't', 'e', 's'], arcminuteU),
   (['a', 'r', 'c', 's', 'e', 'c', 'o', 'n', 'd'], arcsecondU),
   (['a', 'r', 'c', 's', 'e', 'c', 'o', 'n', 'd', 's'], arcsecondU),
   (['g', 'r', 'a', 'y'], grayU),
   (['g', 'r', 'a', 'y', 's'], grayU),
   (['g', 'y'], grayU),
   (['s', 'i', 'e', 'v', 'e', 'r', 't'], sievertU),
   (['s', 'i', 'e', 'v', 'e', 'r', 't', 's'], sievertU),
   (['s', 'v'], sievertU),
   (['r', 'a', 'd'], radUnitU),
   (['r', 'a', 'd', 's'], radUnitU),
   (['r', 'e', 'm'], remU),
   (['r', 'e', 'm', 's'], remU),
   (['b', 'e', 'c', 'q', 'u', 'e', 'r', 'e', 'l'], becquerelU),
   (['b', 'e', 'c', 'q', 'u', 'e', 'r', 'e', 'l', 's'], becquerelU),
   (['b', 'q'], becquerelU),
   (['c', 'u', 'r', 'i', 'e'], curieU),
   (['c', 'u', 'r', 'i', 'e', 's'], curieU),
   (['c', 'i'], curieU),
   (['r', 'o', 'e', 'n', 't', 'g', 'e', 'n'], roentgenU),
   (['r', 'o', 'e', 'n', 't', 'g', 'e', 'n', 's'], roentgenU),
   (['k', 'a', 't', 'a', 'l'], katalU),
   (['k', 'a', 't', 'a', 'l', 's'], katalU),
   (['k', 'a', 't'], katalU),
   (['l', 'u', 'm', 'e', 'n'], lumenU),
   (['l', 'u', 'm', 'e', 'n', 's'], lumenU),
   (['l', 'm'], lumenU),
   (['l', 'u', 'x'], luxU),
   (['l', 'x'], luxU),
   (['p', 'h', 'o', 't'], photU),
   (['p', 'h', 'o', 't', 's'], photU),
   (['f', 'o', 'o', 't', ' ', 'c', 'a', 'n', 'd', 'l', 'e'], footCandleU),
   (['f', 'o', 'o', 't', '-', 'c', 'a', 'n', 'd', 'l', 'e'], footCandleU),
   (['f', 'o', 'o', 't', 'c', 'a', 'n', 'd', 'l', 'e'], footCandleU),
   (['f', 'c'], footCandleU),
   (['n', 'i', 't'], nitU),
   (['n', 'i', 't', 's'], nitU),
   (['s', 'i', 'e', 'm', 'e', 'n', 's'], siemensU),
   (['f', 'a', 'r', 'a', 'd'], faradU),
   (['f', 'a', 'r', 'a', 'd', 's'], faradU),
   (['m', 'i', 'c', 'r', 'o', 'f', 'a', 'r', 'a', 'd'], microfaradU),
   (['m', 'i', 'c', 'r', 'o', 'f', 'a', 'r', 'a', 'd', 's'], microfaradU),
   (['µ', 'f'], microfaradU),
   (['u', 'f'], microfaradU),
   (['n', 'a', 'n', 'o', 'f', 'a', 'r', 'a', 'd'], nanofaradU),
   (['n', 'a', 'n', 'o', 'f', 'a', 'r', 'a', 'd', 's'], nanofaradU),
   (['n', 'f'], nanofaradU),
   (['p', 'i', 'c', 'o', 'f', 'a', 'r', 'a', 'd'], picofaradU),
   (['p', 'i', 'c', 'o', 'f', 'a', 'r', 'a', 'd', 's'], picofaradU),
   (['p', 'f'], picofaradU),
   (['w', 'e', 'b', 'e', 'r'], weberU),
   (['w', 'e', 'b', 'e', 'r', 's'], weberU),
   (['w', 'b'], weberU),
   (['m', 'a', 'x', 'w', 'e', 'l', 'l'], maxwellU),
   (['m', 'a', 'x', 'w', 'e', 'l', 'l', 's'], maxwellU),
   (['m', 'x'], maxwellU),
   (['h', 'e', 'n', 'r', 'y'], henryU),
   (['h', 'e', 'n', 'r', 'i', 'e', 's'], henryU),
   (['t', 'e', 's', 'l', 'a'], teslaU),
   (['t', 'e', 's', 'l', 'a', 's'], teslaU),
   (['g', 'a', 'u', 's', 's'], gaussU),
   (['p', 'a', 's', 'c', 'a', 'l', ' ', 's', 'e', 'c', 'o', 'n', 'd'], pascalSecondU),
   (['p', 'a', 's', 'c', 'a', 'l', '-', 's', 'e', 'c', 'o', 'n', 'd'], pascalSecondU),
   (['p', 'a', '·', 's'], pascalSecondU),
   (['p', 'a', 's'], pascalSecondU),
   (['p', 'o', 'i', 's', 'e'], poiseU),
   (['c', 'e', 'n', 't', 'i', 'p', 'o', 'i', 's', 'e'], centipoiseU),
   (['c', 'p'], centipoiseU),
   (['s', 't', 'o', 'k', 'e', 's'], stokesU),
   (['s', 't', 'o', 'k', 'e'], stokesU),
   (['c', 'e', 'n', 't', 'i', 's', 't', 'o', 'k', 'e', 's'], centistokesU),
   (['c', 's', 't'], centistokesU),
   (['g', 'a', 'l', 'l', 'o', 'n', ' ', 'p', 'e', 'r', ' ', 'm', 'i', 'n', 'u', 't', 'e'], gallonPerMinuteU),
   (['g', 'p', 'm'], gallonPerMinuteU),
   (['c', 'u', 'b', 'i', 'c', ' ', 'f', 'o', 'o', 't', ' ', 'p', 'e', 'r', ' ', 'm', 'i', 'n', 'u', 't', 'e'], cubicFootPerMinuteU),
   (['c', 'f', 'm'], cubicFootPerMinuteU),
   (['l', 'i', 't', 'r', 'e', ' ', 'p', 'e', 'r', ' ', 's', 'e', 'c', 'o', 'n', 'd'], litrePerSecondU),
   (['l', 'i', 't', 'e', 'r', ' ', 'p', 'e', 'r', ' ', 's', 'e', 'c', 'o', 'n', 'd'], litrePerSecondU),
   (['l', '/', 's'], litrePerSecondU),
   (['m', 'o', 'l', 'a', 'r'], molarU),
   (['m', 'i', 'l', 'l', 'i', 'm', 'o', 'l', 'a', 'r'], millimolarU),
   (['m', 'm', '/', 'l'], millimolarU),
   (['b', 'i', 't', ' ', 'p', 'e', 'r', ' ', 's', 'e', 'c', 'o', 'n', 'd'], bitPerSecondU),
   (['b', 'i', 't', 's', ' ', 'p', 'e', 'r', ' ', 's', 'e', 'c', 'o', 'n', 'd'], bitPerSecondU),
   (['b', 'p', 's'], bitPerSecondU),
   (['k', 'i', 'l', 'o', 'b', 'i', 't', ' ', 'p', 'e', 'r', ' ', 's', 'e', 'c', 'o', 'n', 'd'], kilobitPerSecondU),
   (['k', 'b', 'p', 's'], kilobitPerSecondU),
   (['m', 'e', 'g', 'a', 'b', 'i', 't', ' ', 'p', 'e', 'r', ' ', 's', 'e', 'c', 'o', 'n', 'd'], megabitPerSecondU),
   (['m', 'b', 'p', 's'], megabitPerSecondU),
   (['g', 'i', 'g', 'a', 'b', 'i', 't', ' ', 'p', 'e', 'r', ' ', 's', 'e', 'c', 'o', 'n', 'd'], gigabitPerSecondU),
   (['g', 'b', 'p', 's'], gigabitPerSecondU),
   (['b', 'y', 't', 'e', ' ', 'p', 'e', 'r', ' ', 's', 'e', 'c', 'o', 'n', 'd'], bytePerSecondU),
   (['b', 'y', 't', 'e', 's', ' ', 'p', 'e', 'r', ' ', 's', 'e', 'c', 'o', 'n', 'd'], bytePerSecondU),
   (['n', 'e', 'w', 't', 'o', 'n', ' ', 'p', 'e', 'r', ' ', 'm', 'e', 't', 'e', 'r'], newtonPerMetreU),
   (['n', 'e', 'w', 't', 'o', 'n', ' ', 'p', 'e', 'r', ' ', 'm', 'e', 't', 'r', 'e'], newtonPerMetreU),
   (['n', '/', 'm'], newtonPerMetreU),
   (['s', 't', 'i', 'c', 'k'], stickOfButterU),
   (['s', 't', 'i', 'c', 'k', 's'], stickOfButterU),
   (['s', 't', 'i', 'c', 'k', ' ', 'o', 'f', ' ', 'b', 'u', 't', 't', 'e', 'r'], stickOfButterU),
   (['d', 'a', 's', 'h'], dashU),
   (['d', 'a', 's', 'h', 'e', 's'], dashU),
   (['p', 'i', 'n', 'c', 'h'], pinchU),
   (['p', 'i', 'n', 'c', 'h', 'e', 's'], pinchU),
   (['s', 'm', 'i', 'd', 'g', 'e', 'n'], smidgenU),
   (['s', 'm', 'i', 'd', 'g', 'e', 'n', 's'], smidgenU),
   (['f', 'a', 't', 'h', 'o', 'm'], fathomU),
   (['f', 'a', 't', 'h', 'o', 'm', 's'], fathomU),
   (['c', 'a', 'b', 'l', 'e'], cableU),
   (['c', 'a', 'b', 'l', 'e', 's'], cableU),
   (['l', 'e', 'a', 'g', 'u', 'e'], leagueU),
   (['l', 'e', 'a', 'g', 'u', 'e', 's'], leagueU),
   (['l', 'i', 'g', 'h', 't', ' ', 's', 'e', 'c', 'o', 'n', 'd'], lightSecondU),
   (['l', 'i', 'g', 'h', 't', '-', 's', 'e', 'c', 'o', 'n', 'd'], lightSecondU),
   (['l', 'i', 'g', 'h', 't', ' ', 's', 'e', 'c', 'o', 'n', 'd', 's'], lightSecondU),
   (['l', 'i', 'g', 'h', 't', ' ', 'm', 'i', 'n', 'u', 't', 'e'], lightMinuteU),
   (['l', 'i', 'g', 'h', 't', '-', 'm', 'i', 'n', 'u', 't', 'e'], lightMinuteU),
   (['l', 'i', 'g', 'h', 't', ' ', 'm', 'i', 'n', 'u', 't', 'e', 's'], lightMinuteU),
   (['e', 'a', 'c', 'h'], eachU),
   (['e', 'a'], eachU),
   (['c', 'o', 'u', 'n', 't'], eachU),
   (['p', 'a', 'i', 'r'], pairU),
   (['p', 'a', 'i', 'r', 's'], pairU),
   (['d', 'o', 'z', 'e', 'n'], dozenU),
   (['d', 'o', 'z', 'e', 'n', 's'], dozenU),
   (['d', 'z'], dozenU),
   (['s', 'c', 'o', 'r', 'e'], scoreU),
   (['s', 'c', 'o', 'r', 'e', 's'], scoreU),
   (['g', 'r', 'o', 's', 's'], grossU),
   (['r', 'e', 'a', 'm'], reamU),
   (['r', 'e', 'a', 'm', 's'], reamU),
   (['p', 'e', 'r', 'c', 'e', 'n', 't'], percentU),
   (['p', 'e', 'r', 'c', 'e', 'n', 't', 's'], percentU),
   (['%'], percentU),
   (['p', 'e', 'r', 'm', 'i', 'l', 'l', 'e'], permilleU),
   (['p', 'e', 'r', ' ', 'm', 'i', 'l', 'l', 'e'], permilleU),
   (['‰'], permilleU),
   (['p', 'p', 'm'], ppmU),
   (['p', 'p', 'b'], ppbU),
   (['b', 'a', 's', 'i', 's', ' ', 'p', 'o', 'i', 'n', 't'], basisPointU),
   (['b', 'a', 's', 'i', 's', ' ', 'p', 'o', 'i', 'n', 't', 's'], basisPointU),
   (['m', 'e', 'g', 'a', 'm', 'e', 't', 'e', 'r'], megametreU),
   (['m', 'e', 'g', 'a', 'm', 'e', 't', 'r', 'e'], megametreU),
   (['g', 'i', 'g', 'a', 'm', 'e', 't', 'e', 'r'], gigametreU),
   (['g', 'i', 'g', 'a', 'm', 'e', 't', 'r', 'e'], gigametreU),
   (['p', 'i', 'c', 'o', 'm', 'e', 't', 'e', 'r'], picometreU),
   (['p', 'i', 'c', 'o', 'm', 'e', 't', 'r', 'e'], picometreU),
   (['p', 'm'], picometreU),
   (['n', 'a', 'n', 'o', 'g', 'r', 'a', 'm'], nanogramU),
   (['n', 'a', 'n', 'o', 'g', 'r', 'a', 'm', 's'], nanogramU),
   (['g', 'i', 'g', 'a', 'w', 'a', 't', 't'], gigawattU),
   (['g', 'i', 'g', 'a', 'w', 'a', 't', 't', 's'], gigawattU),
   (['g', 'w'], gigawattU),
   (['t', 'e', 'r', 'a', 'w', 'a', 't', 't'], terawattU),
   (['t', 'e', 'r', 'a', 'w', 'a', 't', 't', 's'], terawattU),
   (['t', 'w'], terawattU),
   (['t', 'e', 'r', 'a', 'b', 'y', 't', 'e'], terabyteU),
   (['t', 'e', 'r', 'a', 'b', 'y', 't', 'e', 's'], terabyteU),
   (['t', 'b'], terabyteU),
   (['p', 'e', 't', 'a', 'b', 'y', 't', 'e'], petabyteU),
   (['p', 'e', 't', 'a', 'b', 'y', 't', 'e', 's'], petabyteU),
   (['p', 'b'], petabyteU)]

/-- `to_ascii_lowercase` on one character. -/
def lower (c : Char) : Char := if 'A' ≤ c ∧ c ≤ 'Z' then Char.ofNat (c.toNat + 32) else c

/-- `by_name` (`quantity.rs` 522–706) of a name without blanks around it. -/
def byName (n : List Char) : Option MUnit := names.lookup (n.map lower)

end Verif.Num.Units
