import Verif.Props.PrimeUpto
/-
C14: the number and sum of the primes up to ten million; a separate module, since the memory used by such evaluations
is only given back at the end of a module.
-/
namespace SM.Props

theorem upto_6 : Upto 6000000 412849 1192390967254 :=
  upto_5.next (K := 20) (l := 1000000) (enough_million.mono (by decide)) (by decide +kernel) (by decide) (by decide)
    (by decide +kernel)

theorem upto_7 : Upto 7000000 476648 1607061425171 :=
  upto_6.next (K := 20) (l := 1000000) (enough_million.mono (by decide)) (by decide +kernel) (by decide) (by decide)
    (by decide +kernel)

theorem upto_8 : Upto 8000000 539777 2080483502248 :=
  upto_7.next (K := 20) (l := 1000000) (enough_million.mono (by decide)) (by decide +kernel) (by decide) (by decide)
    (by decide +kernel)

theorem upto_9 : Upto 9000000 602489 2613521583098 :=
  upto_8.next (K := 20) (l := 1000000) (enough_million.mono (by decide)) (by decide +kernel) (by decide) (by decide)
    (by decide +kernel)

theorem upto_10 : Upto 10000000 664579 3203324994356 :=
  upto_9.next (K := 20) (l := 1000000) (enough_million.mono (by decide)) (by decide +kernel) (by decide) (by decide)
    (by decide +kernel)

end SM.Props
