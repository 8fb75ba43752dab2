import Verif.Model.Hybrids
import Verif.Model.Common
import Verif.Model.Beta

/-!
# The analyses built on the hybrid models

Model of the declarations of `/repo/src/gwkanal/n_pls_m_gs/{sage,monk,genie}.py`, `o3_n_pls_m_gs/sage.py` and `o4_n_bpls_m_gs/sage.py`: the
data columns, the hyper-parameter names and the flags handed to the model.  The command-line parsing itself is not modelled; `o` is the
option the user chose for each optional piece.
-/

namespace GW.Hybrids
open GW.PyDict GW.Common

/-- How many copies of a name are declared: `N_pl` (or `N_bpl`), `N_g`, their sum, or one less.  Source: gwkanal/n_pls_m_gs/sage.py lines 222–535. -/
inductive Count
  | body | gauss | total | totalLessOne
  deriving DecidableEq

/-- The number of copies for given component numbers, gwkanal/n_pls_m_gs/sage.py lines 222–535. -/
def Count.eval (nb ng : Nat) : Count → Nat
  | .body => nb
  | .gauss => ng
  | .total => nb + ng
  | .totalLessOne => nb + ng - 1

/-- `all_params` of `NPowerlawMGaussianCore.model_parameters`, n_pls_m_gs/sage.py:221–533 (identical in monk.py:150–462): the names that are
always declared and the ones under each flag. -/
def sageBlocks : List (Option Flag × List (String × Count)) :=
  [ (none, [
      ("log_rate", .total), ("alpha_pl", .body), ("beta_pl", .body), ("m1_loc_g", .gauss), ("m2_loc_g", .gauss),
      ("m1_scale_g", .gauss), ("m2_scale_g", .gauss), ("m1_low_g", .gauss), ("m2_low_g", .gauss),
      ("m1_high_g", .gauss), ("m2_high_g", .gauss), ("mmax_pl", .body), ("mmin_pl", .body)]),
    (some .spinMixture, [
      ("a_zeta_g", .gauss), ("a_zeta_pl", .body), ("a_1_comp1_high_g", .gauss), ("a_1_comp1_high_pl", .body),
      ("a_1_comp1_loc_g", .gauss), ("a_1_comp1_loc_pl", .body), ("a_1_comp1_low_g", .gauss),
      ("a_1_comp1_low_pl", .body), ("a_1_comp1_scale_g", .gauss), ("a_1_comp1_scale_pl", .body),
      ("a_1_comp2_high_g", .gauss), ("a_1_comp2_high_pl", .body), ("a_1_comp2_loc_g", .gauss),
      ("a_1_comp2_loc_pl", .body), ("a_1_comp2_low_g", .gauss), ("a_1_comp2_low_pl", .body),
      ("a_1_comp2_scale_g", .gauss), ("a_1_comp2_scale_pl", .body), ("a_2_comp1_high_g", .gauss),
      ("a_2_comp1_high_pl", .body), ("a_2_comp1_loc_g", .gauss), ("a_2_comp1_loc_pl", .body),
      ("a_2_comp1_low_g", .gauss), ("a_2_comp1_low_pl", .body), ("a_2_comp1_scale_g", .gauss),
      ("a_2_comp1_scale_pl", .body), ("a_2_comp2_high_g", .gauss), ("a_2_comp2_high_pl", .body),
      ("a_2_comp2_loc_g", .gauss), ("a_2_comp2_loc_pl", .body), ("a_2_comp2_low_g", .gauss),
      ("a_2_comp2_low_pl", .body), ("a_2_comp2_scale_g", .gauss), ("a_2_comp2_scale_pl", .body)]),
    (some .betaSpin, [
      ("a_1_mean_g", .gauss), ("a_1_mean_pl", .body), ("a_1_variance_g", .gauss), ("a_1_variance_pl", .body),
      ("a_2_mean_g", .gauss), ("a_2_mean_pl", .body), ("a_2_variance_g", .gauss), ("a_2_variance_pl", .body)]),
    (some .spinX, [
      ("spin_1x_high_g", .gauss), ("spin_1x_high_pl", .body), ("spin_1x_loc_g", .gauss), ("spin_1x_loc_pl", .body),
      ("spin_1x_low_g", .gauss), ("spin_1x_low_pl", .body), ("spin_1x_scale_g", .gauss),
      ("spin_1x_scale_pl", .body), ("spin_2x_high_g", .gauss), ("spin_2x_high_pl", .body),
      ("spin_2x_loc_g", .gauss), ("spin_2x_loc_pl", .body), ("spin_2x_low_g", .gauss), ("spin_2x_low_pl", .body),
      ("spin_2x_scale_g", .gauss), ("spin_2x_scale_pl", .body)]),
    (some .spinY, [
      ("spin_1y_high_g", .gauss), ("spin_1y_high_pl", .body), ("spin_1y_loc_g", .gauss), ("spin_1y_loc_pl", .body),
      ("spin_1y_low_g", .gauss), ("spin_1y_low_pl", .body), ("spin_1y_scale_g", .gauss),
      ("spin_1y_scale_pl", .body), ("spin_2y_high_g", .gauss), ("spin_2y_high_pl", .body),
      ("spin_2y_loc_g", .gauss), ("spin_2y_loc_pl", .body), ("spin_2y_low_g", .gauss), ("spin_2y_low_pl", .body),
      ("spin_2y_scale_g", .gauss), ("spin_2y_scale_pl", .body)]),
    (some .spinZ, [
      ("spin_1z_high_g", .gauss), ("spin_1z_high_pl", .body), ("spin_1z_loc_g", .gauss), ("spin_1z_loc_pl", .body),
      ("spin_1z_low_g", .gauss), ("spin_1z_low_pl", .body), ("spin_1z_scale_g", .gauss),
      ("spin_1z_scale_pl", .body), ("spin_2z_high_g", .gauss), ("spin_2z_high_pl", .body),
      ("spin_2z_loc_g", .gauss), ("spin_2z_loc_pl", .body), ("spin_2z_low_g", .gauss), ("spin_2z_low_pl", .body),
      ("spin_2z_scale_g", .gauss), ("spin_2z_scale_pl", .body)]),
    (some .chiEffMixture, [
      ("chi_eff_comp1_high_g", .gauss), ("chi_eff_comp1_high_pl", .body), ("chi_eff_comp1_loc_g", .gauss),
      ("chi_eff_comp1_loc_pl", .body), ("chi_eff_comp1_low_g", .gauss), ("chi_eff_comp1_low_pl", .body),
      ("chi_eff_comp1_scale_g", .gauss), ("chi_eff_comp1_scale_pl", .body), ("chi_eff_comp2_high_g", .gauss),
      ("chi_eff_comp2_high_pl", .body), ("chi_eff_comp2_loc_g", .gauss), ("chi_eff_comp2_loc_pl", .body),
      ("chi_eff_comp2_low_g", .gauss), ("chi_eff_comp2_low_pl", .body), ("chi_eff_comp2_scale_g", .gauss),
      ("chi_eff_comp2_scale_pl", .body), ("chi_eff_zeta_g", .gauss), ("chi_eff_zeta_pl", .body)]),
    (some .chiEffSkew, [
      ("chi_eff_epsilon_g", .gauss), ("chi_eff_epsilon_pl", .body), ("chi_eff_loc_g", .gauss),
      ("chi_eff_loc_pl", .body), ("chi_eff_scale_g", .gauss), ("chi_eff_scale_pl", .body)]),
    (some .chiP, [
      ("chi_p_high_g", .gauss), ("chi_p_high_pl", .body), ("chi_p_loc_g", .gauss), ("chi_p_loc_pl", .body),
      ("chi_p_low_g", .gauss), ("chi_p_low_pl", .body), ("chi_p_scale_g", .gauss), ("chi_p_scale_pl", .body)]),
    (some .tilt, [
      ("cos_tilt_zeta_g", .gauss), ("cos_tilt_zeta_pl", .body), ("cos_tilt_1_scale_g", .gauss),
      ("cos_tilt_1_scale_pl", .body), ("cos_tilt_2_scale_g", .gauss), ("cos_tilt_2_scale_pl", .body)]),
    (some .phi12, [
      ("phi_12_high_g", .gauss), ("phi_12_high_pl", .body), ("phi_12_loc_g", .gauss), ("phi_12_loc_pl", .body),
      ("phi_12_low_g", .gauss), ("phi_12_low_pl", .body), ("phi_12_scale_g", .gauss), ("phi_12_scale_pl", .body)]),
    (some .eccentricity, [
      ("eccentricity_comp1_high_g", .gauss), ("eccentricity_comp1_high_pl", .body),
      ("eccentricity_comp1_loc_g", .gauss), ("eccentricity_comp1_loc_pl", .body),
      ("eccentricity_comp1_low_g", .gauss), ("eccentricity_comp1_low_pl", .body),
      ("eccentricity_comp1_scale_g", .gauss), ("eccentricity_comp1_scale_pl", .body),
      ("eccentricity_comp2_high_g", .gauss), ("eccentricity_comp2_high_pl", .body),
      ("eccentricity_comp2_loc_g", .gauss), ("eccentricity_comp2_loc_pl", .body),
      ("eccentricity_comp2_low_g", .gauss), ("eccentricity_comp2_low_pl", .body),
      ("eccentricity_comp2_scale_g", .gauss), ("eccentricity_comp2_scale_pl", .body),
      ("eccentricity_zeta_g", .gauss), ("eccentricity_zeta_pl", .body)]),
    (some .redshift, [
      ("redshift_kappa_g", .gauss), ("redshift_kappa_pl", .body), ("redshift_z_max_g", .gauss),
      ("redshift_z_max_pl", .body)]),
    (some .rightAscension, [
      ("ra_high_g", .gauss), ("ra_high_pl", .body), ("ra_loc_g", .gauss), ("ra_loc_pl", .body),
      ("ra_low_g", .gauss), ("ra_low_pl", .body), ("ra_scale_g", .gauss), ("ra_scale_pl", .body)]),
    (some .sinDeclination, [
      ("dec_high_g", .gauss), ("dec_high_pl", .body), ("dec_loc_g", .gauss), ("dec_loc_pl", .body),
      ("dec_low_g", .gauss), ("dec_low_pl", .body), ("dec_scale_g", .gauss), ("dec_scale_pl", .body)]),
    (some .detectionTime, [
      ("detection_time_high_g", .gauss), ("detection_time_high_pl", .body), ("detection_time_low_g", .gauss),
      ("detection_time_low_pl", .body)]),
    (some .cosIota, [
      ("cos_iota_high_g", .gauss), ("cos_iota_high_pl", .body), ("cos_iota_loc_g", .gauss),
      ("cos_iota_loc_pl", .body), ("cos_iota_low_g", .gauss), ("cos_iota_low_pl", .body),
      ("cos_iota_scale_g", .gauss), ("cos_iota_scale_pl", .body)]),
    (some .polarization, [
      ("psi_high_g", .gauss), ("psi_high_pl", .body), ("psi_loc_g", .gauss), ("psi_loc_pl", .body),
      ("psi_low_g", .gauss), ("psi_low_pl", .body), ("psi_scale_g", .gauss), ("psi_scale_pl", .body)]) ]

/-- `all_params` of the generator, n_pls_m_gs/genie.py:367–1039. -/
def genieBlocks : List (Option Flag × List (String × Count)) :=
  [ (none, [
      ("alpha_pl", .body), ("beta_pl", .body), ("log_rate", .total), ("m1_high_g", .gauss), ("m1_loc_g", .gauss),
      ("m1_low_g", .gauss), ("m1_scale_g", .gauss), ("m2_high_g", .gauss), ("m2_loc_g", .gauss),
      ("m2_low_g", .gauss), ("m2_scale_g", .gauss), ("mmax_pl", .body), ("mmin_pl", .body)]),
    (some .betaSpin, [
      ("a_1_mean_g", .gauss), ("a_1_mean_pl", .body), ("a_1_variance_g", .gauss), ("a_1_variance_pl", .body),
      ("a_2_mean_g", .gauss), ("a_2_mean_pl", .body), ("a_2_variance_g", .gauss), ("a_2_variance_pl", .body)]),
    (some .spinMixture, [
      ("a_zeta_g", .gauss), ("a_zeta_pl", .body), ("a_1_comp1_high_g", .gauss), ("a_1_comp1_high_pl", .body),
      ("a_1_comp1_loc_g", .gauss), ("a_1_comp1_loc_pl", .body), ("a_1_comp1_low_g", .gauss),
      ("a_1_comp1_low_pl", .body), ("a_1_comp1_scale_g", .gauss), ("a_1_comp1_scale_pl", .body),
      ("a_1_comp2_high_g", .gauss), ("a_1_comp2_high_pl", .body), ("a_1_comp2_loc_g", .gauss),
      ("a_1_comp2_loc_pl", .body), ("a_1_comp2_low_g", .gauss), ("a_1_comp2_low_pl", .body),
      ("a_1_comp2_scale_g", .gauss), ("a_1_comp2_scale_pl", .body), ("a_2_comp1_high_g", .gauss),
      ("a_2_comp1_high_pl", .body), ("a_2_comp1_loc_g", .gauss), ("a_2_comp1_loc_pl", .body),
      ("a_2_comp1_low_g", .gauss), ("a_2_comp1_low_pl", .body), ("a_2_comp1_scale_g", .gauss),
      ("a_2_comp1_scale_pl", .body), ("a_2_comp2_high_g", .gauss), ("a_2_comp2_high_pl", .body),
      ("a_2_comp2_loc_g", .gauss), ("a_2_comp2_loc_pl", .body), ("a_2_comp2_low_g", .gauss),
      ("a_2_comp2_low_pl", .body), ("a_2_comp2_scale_g", .gauss), ("a_2_comp2_scale_pl", .body)]),
    (some .spinX, [
      ("spin_1x_high_g", .gauss), ("spin_1x_high_pl", .body), ("spin_1x_loc_g", .gauss), ("spin_1x_loc_pl", .body),
      ("spin_1x_low_g", .gauss), ("spin_1x_low_pl", .body), ("spin_1x_scale_g", .gauss),
      ("spin_1x_scale_pl", .body), ("spin_2x_high_g", .gauss), ("spin_2x_high_pl", .body),
      ("spin_2x_loc_g", .gauss), ("spin_2x_loc_pl", .body), ("spin_2x_low_g", .gauss), ("spin_2x_low_pl", .body),
      ("spin_2x_scale_g", .gauss), ("spin_2x_scale_pl", .body)]),
    (some .spinY, [
      ("spin_1y_high_g", .gauss), ("spin_1y_high_pl", .body), ("spin_1y_loc_g", .gauss), ("spin_1y_loc_pl", .body),
      ("spin_1y_low_g", .gauss), ("spin_1y_low_pl", .body), ("spin_1y_scale_g", .gauss),
      ("spin_1y_scale_pl", .body), ("spin_2y_high_g", .gauss), ("spin_2y_high_pl", .body),
      ("spin_2y_loc_g", .gauss), ("spin_2y_loc_pl", .body), ("spin_2y_low_g", .gauss), ("spin_2y_low_pl", .body),
      ("spin_2y_scale_g", .gauss), ("spin_2y_scale_pl", .body)]),
    (some .spinZ, [
      ("spin_1z_high_g", .gauss), ("spin_1z_high_pl", .body), ("spin_1z_loc_g", .gauss), ("spin_1z_loc_pl", .body),
      ("spin_1z_low_g", .gauss), ("spin_1z_low_pl", .body), ("spin_1z_scale_g", .gauss),
      ("spin_1z_scale_pl", .body), ("spin_2z_high_g", .gauss), ("spin_2z_high_pl", .body),
      ("spin_2z_loc_g", .gauss), ("spin_2z_loc_pl", .body), ("spin_2z_low_g", .gauss), ("spin_2z_low_pl", .body),
      ("spin_2z_scale_g", .gauss), ("spin_2z_scale_pl", .body)]),
    (some .chiEffMixture, [
      ("chi_eff_comp1_high_g", .gauss), ("chi_eff_comp1_high_pl", .body), ("chi_eff_comp1_loc_g", .gauss),
      ("chi_eff_comp1_loc_pl", .body), ("chi_eff_comp1_low_g", .gauss), ("chi_eff_comp1_low_pl", .body),
      ("chi_eff_comp1_scale_g", .gauss), ("chi_eff_comp1_scale_pl", .body), ("chi_eff_comp2_high_g", .gauss),
      ("chi_eff_comp2_high_pl", .body), ("chi_eff_comp2_loc_g", .gauss), ("chi_eff_comp2_loc_pl", .body),
      ("chi_eff_comp2_low_g", .gauss), ("chi_eff_comp2_low_pl", .body), ("chi_eff_comp2_scale_g", .gauss),
      ("chi_eff_comp2_scale_pl", .body), ("chi_eff_zeta_g", .gauss), ("chi_eff_zeta_pl", .body)]),
    (some .chiEffSkew, [
      ("chi_eff_epsilon_g", .gauss), ("chi_eff_epsilon_pl", .body), ("chi_eff_loc_g", .gauss),
      ("chi_eff_loc_pl", .body), ("chi_eff_scale_g", .gauss), ("chi_eff_scale_pl", .body)]),
    (some .chiP, [
      ("chi_p_high_g", .gauss), ("chi_p_high_pl", .body), ("chi_p_loc_g", .gauss), ("chi_p_loc_pl", .body),
      ("chi_p_low_g", .gauss), ("chi_p_low_pl", .body), ("chi_p_scale_g", .gauss), ("chi_p_scale_pl", .body)]),
    (some .tilt, [
      ("cos_tilt_zeta_g", .gauss), ("cos_tilt_zeta_pl", .body), ("cos_tilt_1_scale_g", .gauss),
      ("cos_tilt_1_scale_pl", .body), ("cos_tilt_2_scale_g", .gauss), ("cos_tilt_2_scale_pl", .body)]),
    (some .phi1, [
      ("phi_1_high_g", .gauss), ("phi_1_high_pl", .body), ("phi_1_low_g", .gauss), ("phi_1_low_pl", .body)]),
    (some .phi2, [
      ("phi_2_high_g", .gauss), ("phi_2_high_pl", .body), ("phi_2_low_g", .gauss), ("phi_2_low_pl", .body)]),
    (some .phi12, [
      ("phi_12_high_g", .gauss), ("phi_12_high_pl", .body), ("phi_12_low_g", .gauss), ("phi_12_low_pl", .body)]),
    (some .eccentricity, [
      ("eccentricity_comp1_high_g", .gauss), ("eccentricity_comp1_high_pl", .body),
      ("eccentricity_comp1_loc_g", .gauss), ("eccentricity_comp1_loc_pl", .body),
      ("eccentricity_comp1_low_g", .gauss), ("eccentricity_comp1_low_pl", .body),
      ("eccentricity_comp1_scale_g", .gauss), ("eccentricity_comp1_scale_pl", .body),
      ("eccentricity_comp2_high_g", .gauss), ("eccentricity_comp2_high_pl", .body),
      ("eccentricity_comp2_loc_g", .gauss), ("eccentricity_comp2_loc_pl", .body),
      ("eccentricity_comp2_low_g", .gauss), ("eccentricity_comp2_low_pl", .body),
      ("eccentricity_comp2_scale_g", .gauss), ("eccentricity_comp2_scale_pl", .body),
      ("eccentricity_zeta_g", .gauss), ("eccentricity_zeta_pl", .body)]),
    (some .meanAnomaly, [
      ("mean_anomaly_high_g", .gauss), ("mean_anomaly_high_pl", .body), ("mean_anomaly_low_g", .gauss),
      ("mean_anomaly_low_pl", .body)]),
    (some .redshift, [
      ("redshift_kappa_g", .gauss), ("redshift_kappa_pl", .body), ("redshift_z_max_g", .gauss),
      ("redshift_z_max_pl", .body)]),
    (some .rightAscension, [
      ("ra_high_g", .gauss), ("ra_high_pl", .body), ("ra_low_g", .gauss), ("ra_low_pl", .body)]),
    (some .sinDeclination, [
      ("dec_high_g", .gauss), ("dec_high_pl", .body), ("dec_low_g", .gauss), ("dec_low_pl", .body)]),
    (some .detectionTime, [
      ("detection_time_high_g", .gauss), ("detection_time_high_pl", .body), ("detection_time_low_g", .gauss),
      ("detection_time_low_pl", .body)]),
    (some .cosIota, [
      ("cos_iota_high_g", .gauss), ("cos_iota_high_pl", .body), ("cos_iota_low_g", .gauss),
      ("cos_iota_low_pl", .body)]),
    (some .polarization, [
      ("psi_high_g", .gauss), ("psi_high_pl", .body), ("psi_low_g", .gauss), ("psi_low_pl", .body)]),
    (some .phiOrb, [
      ("phi_orb_high_g", .gauss), ("phi_orb_high_pl", .body), ("phi_orb_low_g", .gauss), ("phi_orb_low_pl", .body)]) ]

/-- `all_params`, o3_n_pls_m_gs/sage.py:162–329. -/
def o3Blocks : List (Option Flag × List (String × Count)) :=
  [ (none, [
      ("alpha_pl", .body), ("lambda", .totalLessOne), ("m1_high_g", .gauss), ("m1_loc_g", .gauss),
      ("m1_low_g", .gauss), ("m1_scale_g", .gauss), ("mmax_pl", .body), ("mmin_pl", .body)]),
    (some .spinMixture, [
      ("a_zeta_g", .gauss), ("a_zeta_pl", .body), ("a_1_comp1_high_g", .gauss), ("a_1_comp1_high_pl", .body),
      ("a_1_comp1_loc_g", .gauss), ("a_1_comp1_loc_pl", .body), ("a_1_comp1_low_g", .gauss),
      ("a_1_comp1_low_pl", .body), ("a_1_comp1_scale_g", .gauss), ("a_1_comp1_scale_pl", .body),
      ("a_1_comp2_high_g", .gauss), ("a_1_comp2_high_pl", .body), ("a_1_comp2_loc_g", .gauss),
      ("a_1_comp2_loc_pl", .body), ("a_1_comp2_low_g", .gauss), ("a_1_comp2_low_pl", .body),
      ("a_1_comp2_scale_g", .gauss), ("a_1_comp2_scale_pl", .body), ("a_2_comp1_high_g", .gauss),
      ("a_2_comp1_high_pl", .body), ("a_2_comp1_loc_g", .gauss), ("a_2_comp1_loc_pl", .body),
      ("a_2_comp1_low_g", .gauss), ("a_2_comp1_low_pl", .body), ("a_2_comp1_scale_g", .gauss),
      ("a_2_comp1_scale_pl", .body), ("a_2_comp2_high_g", .gauss), ("a_2_comp2_high_pl", .body),
      ("a_2_comp2_loc_g", .gauss), ("a_2_comp2_loc_pl", .body), ("a_2_comp2_low_g", .gauss),
      ("a_2_comp2_low_pl", .body), ("a_2_comp2_scale_g", .gauss), ("a_2_comp2_scale_pl", .body)]),
    (some .betaSpin, [
      ("a_1_mean_g", .gauss), ("a_1_mean_pl", .body), ("a_1_variance_g", .gauss), ("a_1_variance_pl", .body),
      ("a_2_mean_g", .gauss), ("a_2_mean_pl", .body), ("a_2_variance_g", .gauss), ("a_2_variance_pl", .body)]),
    (some .chiEffMixture, [
      ("chi_eff_comp1_high_g", .gauss), ("chi_eff_comp1_high_pl", .body), ("chi_eff_comp1_loc_g", .gauss),
      ("chi_eff_comp1_loc_pl", .body), ("chi_eff_comp1_low_g", .gauss), ("chi_eff_comp1_low_pl", .body),
      ("chi_eff_comp1_scale_g", .gauss), ("chi_eff_comp1_scale_pl", .body), ("chi_eff_comp2_high_g", .gauss),
      ("chi_eff_comp2_high_pl", .body), ("chi_eff_comp2_loc_g", .gauss), ("chi_eff_comp2_loc_pl", .body),
      ("chi_eff_comp2_low_g", .gauss), ("chi_eff_comp2_low_pl", .body), ("chi_eff_comp2_scale_g", .gauss),
      ("chi_eff_comp2_scale_pl", .body), ("chi_eff_zeta_g", .gauss), ("chi_eff_zeta_pl", .body)]),
    (some .chiEffSkew, [
      ("chi_eff_epsilon_g", .gauss), ("chi_eff_epsilon_pl", .body), ("chi_eff_loc_g", .gauss),
      ("chi_eff_loc_pl", .body), ("chi_eff_scale_g", .gauss), ("chi_eff_scale_pl", .body)]),
    (some .chiP, [
      ("chi_p_high_g", .gauss), ("chi_p_high_pl", .body), ("chi_p_loc_g", .gauss), ("chi_p_loc_pl", .body),
      ("chi_p_low_g", .gauss), ("chi_p_low_pl", .body), ("chi_p_scale_g", .gauss), ("chi_p_scale_pl", .body)]),
    (some .tilt, [
      ("cos_tilt_zeta_g", .gauss), ("cos_tilt_zeta_pl", .body), ("cos_tilt_1_loc_pl", .body),
      ("cos_tilt_1_loc_g", .gauss), ("cos_tilt_1_minimum_pl", .body), ("cos_tilt_1_minimum_g", .gauss),
      ("cos_tilt_1_scale_pl", .body), ("cos_tilt_1_scale_g", .gauss), ("cos_tilt_2_loc_pl", .body),
      ("cos_tilt_2_loc_g", .gauss), ("cos_tilt_2_minimum_pl", .body), ("cos_tilt_2_minimum_g", .gauss),
      ("cos_tilt_2_scale_pl", .body), ("cos_tilt_2_scale_g", .gauss)]),
    (some .eccentricity, [
      ("eccentricity_comp1_high_g", .gauss), ("eccentricity_comp1_high_pl", .body),
      ("eccentricity_comp1_loc_g", .gauss), ("eccentricity_comp1_loc_pl", .body),
      ("eccentricity_comp1_low_g", .gauss), ("eccentricity_comp1_low_pl", .body),
      ("eccentricity_comp1_scale_g", .gauss), ("eccentricity_comp1_scale_pl", .body),
      ("eccentricity_comp2_high_g", .gauss), ("eccentricity_comp2_high_pl", .body),
      ("eccentricity_comp2_loc_g", .gauss), ("eccentricity_comp2_loc_pl", .body),
      ("eccentricity_comp2_low_g", .gauss), ("eccentricity_comp2_low_pl", .body),
      ("eccentricity_comp2_scale_g", .gauss), ("eccentricity_comp2_scale_pl", .body),
      ("eccentricity_zeta_g", .gauss), ("eccentricity_zeta_pl", .body)]),
    (some .redshift, [
      ("redshift_kappa_g", .gauss), ("redshift_kappa_pl", .body), ("redshift_z_max_g", .gauss),
      ("redshift_z_max_pl", .body)]) ]

/-- `all_params`, o4_n_bpls_m_gs/sage.py:162–331. -/
def o4Blocks : List (Option Flag × List (String × Count)) :=
  [ (none, [
      ("alpha1_bpl", .body), ("alpha2_bpl", .body), ("lambda", .totalLessOne), ("m1_high_g", .gauss),
      ("m1_loc_g", .gauss), ("m1_low_g", .gauss), ("m1_scale_g", .gauss), ("m1break_bpl", .body),
      ("m1max_bpl", .body), ("m1min_bpl", .body)]),
    (some .spinMixture, [
      ("a_zeta_g", .gauss), ("a_zeta_bpl", .body), ("a_1_comp1_high_g", .gauss), ("a_1_comp1_high_bpl", .body),
      ("a_1_comp1_loc_g", .gauss), ("a_1_comp1_loc_bpl", .body), ("a_1_comp1_low_g", .gauss),
      ("a_1_comp1_low_bpl", .body), ("a_1_comp1_scale_g", .gauss), ("a_1_comp1_scale_bpl", .body),
      ("a_1_comp2_high_g", .gauss), ("a_1_comp2_high_bpl", .body), ("a_1_comp2_loc_g", .gauss),
      ("a_1_comp2_loc_bpl", .body), ("a_1_comp2_low_g", .gauss), ("a_1_comp2_low_bpl", .body),
      ("a_1_comp2_scale_g", .gauss), ("a_1_comp2_scale_bpl", .body), ("a_2_comp1_high_g", .gauss),
      ("a_2_comp1_high_bpl", .body), ("a_2_comp1_loc_g", .gauss), ("a_2_comp1_loc_bpl", .body),
      ("a_2_comp1_low_g", .gauss), ("a_2_comp1_low_bpl", .body), ("a_2_comp1_scale_g", .gauss),
      ("a_2_comp1_scale_bpl", .body), ("a_2_comp2_high_g", .gauss), ("a_2_comp2_high_bpl", .body),
      ("a_2_comp2_loc_g", .gauss), ("a_2_comp2_loc_bpl", .body), ("a_2_comp2_low_g", .gauss),
      ("a_2_comp2_low_bpl", .body), ("a_2_comp2_scale_g", .gauss), ("a_2_comp2_scale_bpl", .body)]),
    (some .betaSpin, [
      ("a_1_mean_g", .gauss), ("a_1_mean_bpl", .body), ("a_1_variance_g", .gauss), ("a_1_variance_bpl", .body),
      ("a_2_mean_g", .gauss), ("a_2_mean_bpl", .body), ("a_2_variance_g", .gauss), ("a_2_variance_bpl", .body)]),
    (some .chiEffMixture, [
      ("chi_eff_comp1_high_bpl", .body), ("chi_eff_comp1_high_g", .gauss), ("chi_eff_comp1_loc_bpl", .body),
      ("chi_eff_comp1_loc_g", .gauss), ("chi_eff_comp1_low_bpl", .body), ("chi_eff_comp1_low_g", .gauss),
      ("chi_eff_comp1_scale_bpl", .body), ("chi_eff_comp1_scale_g", .gauss), ("chi_eff_comp2_high_bpl", .body),
      ("chi_eff_comp2_high_g", .gauss), ("chi_eff_comp2_loc_bpl", .body), ("chi_eff_comp2_loc_g", .gauss),
      ("chi_eff_comp2_low_bpl", .body), ("chi_eff_comp2_low_g", .gauss), ("chi_eff_comp2_scale_bpl", .body),
      ("chi_eff_comp2_scale_g", .gauss), ("chi_eff_zeta_bpl", .body), ("chi_eff_zeta_g", .gauss)]),
    (some .chiEffSkew, [
      ("chi_eff_epsilon_bpl", .body), ("chi_eff_epsilon_g", .gauss), ("chi_eff_loc_bpl", .body),
      ("chi_eff_loc_g", .gauss), ("chi_eff_scale_bpl", .body), ("chi_eff_scale_g", .gauss)]),
    (some .chiP, [
      ("chi_p_high_g", .gauss), ("chi_p_high_bpl", .body), ("chi_p_loc_g", .gauss), ("chi_p_loc_bpl", .body),
      ("chi_p_low_g", .gauss), ("chi_p_low_bpl", .body), ("chi_p_scale_g", .gauss), ("chi_p_scale_bpl", .body)]),
    (some .tilt, [
      ("cos_tilt_zeta_g", .gauss), ("cos_tilt_zeta_bpl", .body), ("cos_tilt_1_loc_bpl", .body),
      ("cos_tilt_1_loc_g", .gauss), ("cos_tilt_1_minimum_bpl", .body), ("cos_tilt_1_minimum_g", .gauss),
      ("cos_tilt_1_scale_bpl", .body), ("cos_tilt_1_scale_g", .gauss), ("cos_tilt_2_loc_bpl", .body),
      ("cos_tilt_2_loc_g", .gauss), ("cos_tilt_2_minimum_bpl", .body), ("cos_tilt_2_minimum_g", .gauss),
      ("cos_tilt_2_scale_bpl", .body), ("cos_tilt_2_scale_g", .gauss)]),
    (some .eccentricity, [
      ("eccentricity_comp1_high_bpl", .body), ("eccentricity_comp1_high_g", .gauss),
      ("eccentricity_comp1_loc_bpl", .body), ("eccentricity_comp1_loc_g", .gauss),
      ("eccentricity_comp1_low_bpl", .body), ("eccentricity_comp1_low_g", .gauss),
      ("eccentricity_comp1_scale_bpl", .body), ("eccentricity_comp1_scale_g", .gauss),
      ("eccentricity_comp2_high_bpl", .body), ("eccentricity_comp2_high_g", .gauss),
      ("eccentricity_comp2_loc_bpl", .body), ("eccentricity_comp2_loc_g", .gauss),
      ("eccentricity_comp2_low_bpl", .body), ("eccentricity_comp2_low_g", .gauss),
      ("eccentricity_comp2_scale_bpl", .body), ("eccentricity_comp2_scale_g", .gauss),
      ("eccentricity_zeta_bpl", .body), ("eccentricity_zeta_g", .gauss)]),
    (some .redshift, [
      ("redshift_kappa_g", .gauss), ("redshift_kappa_bpl", .body), ("redshift_z_max_g", .gauss),
      ("redshift_z_max_bpl", .body)]) ]

/-- The `if self.…: all_params.extend([…])` statements.  Source: gwkanal/n_pls_m_gs/sage.py lines 240–538. -/
def allParams (blocks : List (Option Flag × List (String × Count))) (o : Flag → Bool) : List (String × Count) :=
  blocks.flatMap fun b => if b.1.elim true o then b.2 else []

/-- The closing loop of `model_parameters`: `expand_arguments(name, n)` for each entry (sage.py:535–538). -/
def expandAll (l : List (String × Count)) (nb ng : Nat) : List String :=
  l.flatMap fun p => expandArguments p.1 (p.2.eval nb ng)

/-- `NPowerlawMGaussianCore.model_parameters`, n_pls_m_gs/sage.py:221–538. -/
def sageModelParameters (o : Flag → Bool) (Npl Ng : Nat) : List String := expandAll (allParams sageBlocks o) Npl Ng

/-- `extended_params`, n_pls_m_gs/genie.py:1054–1056. -/
def genieModelParameters (o : Flag → Bool) (Npl Ng : Nat) : List String := expandAll (allParams genieBlocks o) Npl Ng

/-- `model_parameters`, o3_n_pls_m_gs/sage.py:160–340. -/
def o3ModelParameters (o : Flag → Bool) (Npl Ng : Nat) : List String :=
  ["beta", "delta_m", "log_rate", "mmax", "mmin"] ++ expandAll (allParams o3Blocks o) Npl Ng

/-- `model_parameters`, o4_n_bpls_m_gs/sage.py:160–345. -/
def o4ModelParameters (o : Flag → Bool) (Nbpl Ng : Nat) : List String :=
  ["beta", "delta_m1", "delta_m2", "log_rate", "m1max", "m1min", "m2min"] ++ expandAll (allParams o4Blocks o) Nbpl Ng

/-- The `use_…` entries of `constants`, n_pls_m_gs/sage.py:158–180 (monk.py:87–109); the four flags not listed keep their default `False`. -/
def sageConstants (o : Flag → Bool) : Flag → Bool
  | .phi1 | .phi2 | .phiOrb | .meanAnomaly => false
  | f => o f

/-- The `use_…` entries of `model_param.update`, n_pls_m_gs/genie.py:1060–1085; `use_truncated_normal_chi_p` is not listed and keeps its
default `False`. -/
def genieConstants (o : Flag → Bool) : Flag → Bool
  | .chiP => false
  | f => o f

/-- `parameters`, n_pls_m_gs/sage.py:182–219 (monk.py:111–148). -/
def sageColumns (o : Flag → Bool) : List String :=
  ["mass_1_source", "mass_2_source"]
  ++ (if o .betaSpin || o .spinMixture then ["a_1", "a_2"] else [])
  ++ (if o .spinX then ["spin_1x", "spin_2x"] else [])
  ++ (if o .spinY then ["spin_1y", "spin_2y"] else [])
  ++ (if o .spinZ then ["spin_1z", "spin_2z"] else [])
  ++ (if o .chiEffMixture || o .chiEffSkew then ["chi_eff"] else [])
  ++ (if o .chiP then ["chi_p"] else [])
  ++ (if o .tilt then ["cos_tilt_1", "cos_tilt_2"] else [])
  ++ (if o .phi12 then ["phi_12"] else [])
  ++ (if o .eccentricity then ["eccentricity"] else [])
  ++ (if o .redshift then ["redshift"] else [])
  ++ (if o .rightAscension then ["ra"] else [])
  ++ (if o .sinDeclination then ["dec"] else [])
  ++ (if o .detectionTime then ["detection_time"] else [])
  ++ (if o .cosIota then ["cos_iota"] else [])
  ++ (if o .polarization then ["psi"] else [])

/-- `parameters_name`, n_pls_m_gs/genie.py:383–1030. -/
def genieColumns (o : Flag → Bool) : List String :=
  List.flatten [
    ["mass_1_source", "mass_2_source"],
    (if o .betaSpin then ["a_1", "a_2"] else []),
    (if o .spinMixture then ["a_1", "a_2"] else []),
    (if o .spinX then ["spin_1x", "spin_2x"] else []),
    (if o .spinY then ["spin_1y", "spin_2y"] else []),
    (if o .spinZ then ["spin_1z", "spin_2z"] else []),
    (if o .chiEffMixture then ["chi_eff"] else []),
    (if o .chiEffSkew then ["chi_eff"] else []),
    (if o .chiP then ["chi_p"] else []),
    (if o .tilt then ["cos_tilt_1", "cos_tilt_2"] else []),
    (if o .phi1 then ["phi_1"] else []),
    (if o .phi2 then ["phi_2"] else []),
    (if o .phi12 then ["phi_12"] else []),
    (if o .eccentricity then ["eccentricity"] else []),
    (if o .meanAnomaly then ["mean_anomaly"] else []),
    (if o .redshift then ["redshift"] else []),
    (if o .rightAscension then ["ra"] else []),
    (if o .sinDeclination then ["dec"] else []),
    (if o .detectionTime then ["detection_time"] else []),
    (if o .cosIota then ["cos_iota"] else []),
    (if o .polarization then ["psi"] else []),
    (if o .phiOrb then ["phi_orb"] else []) ]

/-- `parameters`, o3_n_pls_m_gs/sage.py:141–158 (identical in o4_n_bpls_m_gs/sage.py:141–158). -/
def smoothedColumns (o : Flag → Bool) : List String :=
  ["mass_1_source"]
  ++ (if o .betaSpin || o .spinMixture then ["a_1", "a_2"] else [])
  ++ (if o .chiEffMixture || o .chiEffSkew then ["chi_eff"] else [])
  ++ (if o .chiP then ["chi_p"] else [])
  ++ (if o .tilt then ["cos_tilt_1", "cos_tilt_2"] else [])
  ++ (if o .eccentricity then ["eccentricity"] else [])
  ++ (if o .redshift then ["redshift"] else [])
  ++ ["mass_ratio"]

/-- `[kwargs[f"chi{i}_{stat}_{ct}_{j}"] for j in range(N) for i in (1, 2)]`, n_pls_m_gs/sage.py:34–56. -/
def checkReads (stat ct : String) (N : Nat) (kwargs : Dict String ℝ) : Except Err (List ℝ) :=
  ((List.range N).flatMap fun j => [1, 2].map fun (i : Nat) => "chi" ++ toString i ++ "_" ++ stat ++ "_" ++ ct ++ "_" ++ toString j).mapM
    (item kwargs)

/-- `mean_variance_check` of `where_fns_list`, n_pls_m_gs/sage.py:31–70, up to the values it hands to
`check_min_concentration_for_beta_dist`. -/
def meanVarianceCheck (Npl Ng : Nat) (kwargs : Dict String ℝ) : Except Err (List ℝ × List ℝ) := do
  let pl ← if 0 < Npl then do
      let m ← checkReads "mean" "pl" Npl kwargs
      let v ← checkReads "variance" "pl" Npl kwargs
      pure (some (m, v))
    else pure none
  let g ← if 0 < Ng then do
      let m ← checkReads "mean" "g" Ng kwargs
      let v ← checkReads "variance" "g" Ng kwargs
      pure (some (m, v))
    else pure none
  match pl, g with
  | some a, some b => pure (a.1 ++ b.1, a.2 ++ b.2)
  | some a, none => pure a
  | none, some b => pure b
  | none, none => .error (.unboundLocal "means_g")

/-- The arguments `positive_concentration` of `where_fns_list` passes to `check_min_concentration_for_beta_dist` for components of one type,
o3_n_pls_m_gs/sage.py:36–51 (`kwargs.get` gives `None` for a missing name, which the check cannot handle). -/
def concentrationReads (ct : String) (N : Nat) (kwargs : Dict String ℝ) : Except Err (List (ℝ × ℝ)) :=
  (List.range N).mapM fun n =>
    match get? kwargs ("a_1_mean_" ++ ct ++ "_" ++ toString n), get? kwargs ("a_1_variance_" ++ ct ++ "_" ++ toString n) with
    | some m, some v => .ok (m, v)
    | _, _ => .error .typeError

/-- `positive_concentration`, o3_n_pls_m_gs/sage.py:32–52 (`body = "pl"`) and o4_n_bpls_m_gs/sage.py:32–52 (`body = "bpl"`): the (mean,
variance) pairs whose concentrations are checked. -/
def positiveConcentrationReads (body : String) (Nb Ng : Nat) (kwargs : Dict String ℝ) : Except Err (List (ℝ × ℝ)) := do
  let a ← concentrationReads body Nb kwargs
  let b ← concentrationReads "g" Ng kwargs
  pure (a ++ b)

end GW.Hybrids
